import Verif.Nbest.StatsSpec
import Verif.Nbest.Tightest
import Verif.Nbest.SuffixMain
import Mathlib.Algebra.BigOperators.Group.List.Basic
import Mathlib.Tactic.Abel
import Mathlib.Data.List.GetD

/-!
# The text of `GetBestMatchingStats` and sums over intervals
-/

namespace Verif.Nbest

theorem le_lcpLen {α : Type} [DecidableEq α] (l : Nat) (a b : List α) :
    l ≤ lcpLen a b ↔ ∀ m, m < l → ∃ c, a[m]? = some c ∧ b[m]? = some c := by
  induction l generalizing a b with
  | zero => simp
  | succ l ih =>
    match a, b with
    | [], b =>
      simp only [lcpLen]
      refine ⟨fun h => by omega, fun h => ?_⟩
      obtain ⟨c, hc, -⟩ := h 0 (by omega)
      simp at hc
    | a :: as, [] =>
      simp only [lcpLen]
      refine ⟨fun h => by omega, fun h => ?_⟩
      obtain ⟨c, -, hc⟩ := h 0 (by omega)
      simp at hc
    | a :: as, b :: bs =>
      simp only [lcpLen]
      constructor
      · intro h
        by_cases hab : a = b
        · rw [if_pos hab] at h
          subst hab
          have := (ih as bs).mp (by omega)
          intro m hm
          cases m with
          | zero => exact ⟨a, rfl, rfl⟩
          | succ m => simpa using this m (by omega)
        · rw [if_neg hab] at h; omega
      · intro h
        obtain ⟨c, h1, h2⟩ := h 0 (by omega)
        simp only [List.getElem?_cons_zero, Option.some.injEq] at h1 h2
        rw [if_pos (h1.trans h2.symm)]
        have := (ih as bs).mpr (fun m hm => by simpa using h (m + 1) (by omega))
        omega

theorem lcpLen_self {α : Type} [DecidableEq α] (a : List α) : lcpLen a a = a.length := by
  induction a with
  | nil => rfl
  | cons x a ih => simp [lcpLen, ih]

theorem hist_eq (w : List Int) (eos : Int) (i : Nat) (hi : i < w.length) :
    hist w eos i = (eos :: w).reverse.drop (w.length - 1 - i) := by
  rw [hist, List.drop_reverse, List.length_cons, show w.length + 1 - (w.length - 1 - i) = (i + 1) + 1 by omega,
    List.take_succ_cons]

/-- The number of a token in the text. -/
def enc (mn t : Int) : Nat := (t + 1 - mn).toNat

/-- The text. -/
def encText (w : List Int) (eos mn mx : Int) : List Nat :=
  (eos :: w).reverse.map (enc mn) ++ [enc mn (mx + 1), 0, 0, 0]

theorem wrap_eq {b : Nat} {x : Int} (h0 : 0 ≤ x) (h1 : x * 2 < 2 ^ b) : wrap b x = x := by
  rw [wrap]
  apply Int.bmod_eq_of_le_mul_two
  · have : (0 : Int) ≤ ((2 ^ b : Nat) : Int) := Int.natCast_nonneg _
    omega
  · push_cast; exact h1

/-- The numbers fit in the type. -/
theorem textOf_eq {b : Nat} {w : List Int} {eos mn mx : Int} (hw : ∀ t ∈ w, mn ≤ t ∧ t ≤ mx)
    (he : mn ≤ eos ∧ eos ≤ mx) (hb : (mx + 2 - mn) * 2 < 2 ^ b) :
    textOf b w eos mn mx = some (encText w eos mn mx, enc mn (mx + 1)) := by
  have hoff : ∀ t, wrap b (t + wrap b (1 - wrap b mn)) = wrap b (t + 1 - mn) := by
    intro t
    simp only [wrap, Int.add_bmod_bmod, Int.add_sub_assoc]
    rw [Int.add_bmod, Int.sub_bmod_bmod, ← Int.add_bmod]
  have hval : ∀ t, mn ≤ t → t ≤ mx + 1 → wrap b (t + wrap b (1 - wrap b mn)) = t + 1 - mn := by
    intro t h1 h2
    rw [hoff]
    exact wrap_eq (by omega) (lt_of_le_of_lt (by omega) hb)
  have hval' : ∀ t, mn ≤ t → t ≤ mx + 1 → ∀ u : Int, wrap b (wrap b u + (t - u) + wrap b (1 - wrap b mn)) = t + 1 - mn := by
    intro t h1 h2 u
    rw [← hval t h1 h2, hoff, hoff]
    simp only [wrap]
    rw [show Int.bmod u (2 ^ b) + (t - u) + 1 - mn = Int.bmod u (2 ^ b) + (t - u + 1 - mn) by omega, Int.bmod_add_bmod]
    congr 1; omega
  have hterm := hval' (mx + 1) (by omega) le_rfl mx
  rw [show mx + 1 - mx = 1 by omega] at hterm
  have heos := hval' eos he.1 (by omega) eos
  rw [show eos - eos = 0 by omega, Int.add_zero] at heos
  rw [textOf]
  simp only [hterm, heos]
  have hmap : w.reverse.map (fun t => wrap b (t + wrap b (1 - wrap b mn))) = w.reverse.map (fun t => t + 1 - mn) := by
    apply List.map_congr_left
    intro t ht
    have := hw t (List.mem_reverse.mp ht)
    exact hval t this.1 (by omega)
  rw [hmap]
  have hM : ∀ l : List Int, (∀ v ∈ l, 0 ≤ v) →
      l.mapM (fun v => if 0 ≤ v then some v.toNat else none) = some (l.map Int.toNat) := by
    intro l hl
    induction l with
    | nil => rfl
    | cons a l ih =>
      rw [List.mapM_cons, if_pos (hl a List.mem_cons_self), ih (fun v hv => hl v (List.mem_cons_of_mem _ hv))]
      rfl
  rw [hM _ (by
    intro v hv
    rcases List.mem_append.mp hv with hv | hv
    · obtain ⟨t, ht, rfl⟩ := List.mem_map.mp hv
      have := hw t (List.mem_reverse.mp ht)
      omega
    · simp only [List.mem_cons, List.not_mem_nil, or_false] at hv
      rcases hv with rfl | rfl | rfl | rfl | rfl <;> omega)]
  simp only [Option.bind_eq_bind, Option.bind_some, Option.some.injEq, Prod.mk.injEq, encText]
  refine ⟨?_, rfl⟩
  simp [enc]

section
variable {w : List Int} {eos mn mx : Int}

theorem encText_text (hw : ∀ t ∈ w, mn ≤ t ∧ t ≤ mx) (he : mn ≤ eos ∧ eos ≤ mx) :
    Text (encText w eos mn mx) (w.length + 2) (enc mn (mx + 1)) (fun p => (encText w eos mn mx).getD p 0) ∧
      (∀ p c, (eos :: w).reverse[p]? = some c → (encText w eos mn mx).getD p 0 = enc mn c ∧ mn ≤ c ∧ c ≤ mx) ∧
      (encText w eos mn mx).getD (w.length + 1) 0 = enc mn (mx + 1) := by
  have hlen : ((eos :: w).reverse.map (enc mn)).length = w.length + 1 := by simp
  have hmem : ∀ c ∈ (eos :: w).reverse, mn ≤ c ∧ c ≤ mx := by
    intro c hc
    rcases List.mem_cons.mp (List.mem_reverse.mp hc) with rfl | hc
    · exact he
    · exact hw c hc
  have h1 : ∀ p c, (eos :: w).reverse[p]? = some c → (encText w eos mn mx).getD p 0 = enc mn c ∧ mn ≤ c ∧ c ≤ mx := by
    intro p c hp
    have hlt := (List.getElem?_eq_some_iff.mp hp).1
    rw [List.length_reverse, List.length_cons] at hlt
    refine ⟨?_, hmem c (List.mem_of_getElem? hp)⟩
    rw [List.getD_eq_getElem?_getD, encText, List.getElem?_append_left (by omega), List.getElem?_map, hp]; rfl
  have h2 : ∀ k, (encText w eos mn mx).getD (w.length + 1 + k) 0 = [enc mn (mx + 1), 0, 0, 0].getD k 0 := by
    intro k
    rw [List.getD_eq_getElem?_getD, encText, List.getElem?_append_right (by omega), hlen, Nat.add_sub_cancel_left,
      ← List.getD_eq_getElem?_getD]
  have hin : ∀ p, p < w.length + 1 → ∃ c, (eos :: w).reverse[p]? = some c := by
    intro p hp
    exact ⟨_, List.getElem?_eq_getElem (by simpa using hp)⟩
  have hout : ∀ p, w.length + 2 ≤ p → (encText w eos mn mx).getD p 0 = 0 := by
    intro p hp
    have := h2 (p - (w.length + 1))
    rw [show w.length + 1 + (p - (w.length + 1)) = p by omega] at this
    rw [this]
    obtain ⟨k, hk⟩ : ∃ k, p - (w.length + 1) = k + 1 := ⟨p - (w.length + 2), by omega⟩
    rw [hk]
    match k with
    | 0 => rfl
    | 1 => rfl
    | 2 => rfl
    | k + 3 => rfl
  have hterm : (encText w eos mn mx).getD (w.length + 1) 0 = enc mn (mx + 1) := h2 0
  refine ⟨⟨?_, ?_, ?_⟩, h1, hterm⟩
  · intro i hi
    have : i < (encText w eos mn mx).length := by
      rw [encText, List.length_append, hlen]; simpa using hi
    rw [List.getD_eq_getElem _ _ this, List.getElem?_eq_getElem this]
  · intro p
    simp only
    rcases Nat.lt_trichotomy p (w.length + 1) with hp | rfl | hp
    · obtain ⟨c, hc⟩ := hin p hp
      obtain ⟨e1, e2, e3⟩ := h1 p c hc
      rw [e1, enc]; omega
    · rw [hterm, enc]; omega
    · have := hout p hp; omega
  · intro p
    rcases Nat.lt_trichotomy p (w.length + 1) with hp | rfl | hp
    · obtain ⟨c, hc⟩ := hin p hp
      obtain ⟨e1, e2, e3⟩ := h1 p c hc
      rw [e1, enc, enc]; omega
    · rw [hterm]
    · rw [hout p hp]; exact Nat.zero_le _

/-- Common prefixes of suffixes of the text are common parts of histories. -/
theorem common_iff (hw : ∀ t ∈ w, mn ≤ t ∧ t ≤ mx) (he : mn ≤ eos ∧ eos ≤ mx) {p q l : Nat} (hp : p ≤ w.length)
    (hq : q ≤ w.length) (hne : p ≠ q) :
    Common (fun p => (encText w eos mn mx).getD p 0) p q l ↔
      l ≤ lcpLen ((eos :: w).reverse.drop p) ((eos :: w).reverse.drop q) := by
  obtain ⟨hT, h1, hterm⟩ := encText_text hw he
  rw [le_lcpLen]
  constructor
  · intro hc m hm
    have hb := hc.bound hT.ends (by omega) (by omega) hne
    have hxm := hc m hm
    simp only at hxm
    have hin : ∀ r, r < w.length + 1 → ∃ c, (eos :: w).reverse[r]? = some c := by
      intro r hr
      exact ⟨_, List.getElem?_eq_getElem (by simpa using hr)⟩
    have hlt : p + m < w.length + 1 ∧ q + m < w.length + 1 := by
      by_contra hcon
      by_cases hpm : p + m = w.length + 1
      · obtain ⟨c, hc⟩ := hin (q + m) (by omega)
        obtain ⟨e1, e2, e3⟩ := h1 _ c hc
        rw [hpm, hterm, e1, enc, enc] at hxm
        omega
      · have hqm : q + m = w.length + 1 := by omega
        obtain ⟨c, hc⟩ := hin (p + m) (by omega)
        obtain ⟨e1, e2, e3⟩ := h1 _ c hc
        rw [hqm, hterm, e1, enc, enc] at hxm
        omega
    obtain ⟨c, hc⟩ := hin _ hlt.1
    obtain ⟨c', hc'⟩ := hin _ hlt.2
    obtain ⟨e1, e2, e3⟩ := h1 _ c hc
    obtain ⟨f1, f2, f3⟩ := h1 _ c' hc'
    rw [e1, f1, enc, enc] at hxm
    refine ⟨c, by rw [List.getElem?_drop]; exact hc, ?_⟩
    rw [List.getElem?_drop, hc']
    congr 1; omega
  · intro h m hm
    obtain ⟨c, g1, g2⟩ := h m hm
    rw [List.getElem?_drop] at g1 g2
    have := (h1 _ c g1).1
    have := (h1 _ c g2).1
    simp only
    omega

/-- The terminator is the last suffix, so that the table ends with zero. -/
theorem last_zero {x σ L : Nat → Nat} {m : Nat} (hless : ∀ p, p < m + 1 → x p < x (m + 1)) (hR : Ranks x (m + 2) σ L)
    (hσ : ∀ p, p < m + 2 → ∃ k, k < m + 2 ∧ σ k = p) (hσ' : ∀ k, k < m + 2 → σ k < m + 2) : L (m + 1) = 0 := by
  have hlast : σ (m + 1) = m + 1 := by
    obtain ⟨k, hk, hk'⟩ := hσ (m + 1) (by omega)
    by_cases hkl : k = m + 1
    · rw [← hkl]; rw [hk']; exact hkl.symm
    · exfalso
      have h2 := hR.less k (m + 1) (by omega) (by omega)
      rw [hk'] at h2
      have hlt := hσ' (m + 1) (by omega)
      by_cases h3 : σ (m + 1) = m + 1
      · rw [h3] at h2; exact Lt.irrefl _ _ h2
      · have h4 := hless (σ (m + 1)) (by omega)
        exact h2.asymm ⟨0, by simp, by simpa using h4⟩
  have hl := hR.lcp m (by omega)
  by_contra hne
  have h5 := hl.1 0 (by omega)
  simp only [Nat.add_zero] at h5
  rw [hlast] at h5
  have hn : σ m ≠ m + 1 := by
    intro h6
    have h7 := hR.less m (m + 1) (by omega) (by omega)
    rw [h6, hlast] at h7
    exact Lt.irrefl _ _ h7
  have h8 := hσ' m (by omega)
  have := hless (σ m) (by omega)
  omega

theorem encText_less (hw : ∀ t ∈ w, mn ≤ t ∧ t ≤ mx) (he : mn ≤ eos ∧ eos ≤ mx) (p : Nat) (hp : p < w.length + 1) :
    (encText w eos mn mx).getD p 0 < (encText w eos mn mx).getD (w.length + 1) 0 := by
  obtain ⟨hT, h1, hterm⟩ := encText_text hw he
  obtain ⟨e1, e2, e3⟩ := h1 p _ (List.getElem?_eq_getElem (by simpa using hp))
  rw [e1, hterm, enc, enc]; omega

end

section
variable {M : Type} [AddCommMonoid M]

theorem excl_get (l : List M) (s : M) (k : Nat) (hk : k ≤ l.length) : (excl s l)[k]? = some (s + (l.take k).sum) := by
  induction l generalizing s k with
  | nil =>
    simp only [List.length_nil, Nat.le_zero] at hk
    subst hk
    simp [excl]
  | cons a l ih =>
    cases k with
    | zero => simp [excl]
    | succ k =>
      rw [excl, List.getElem?_cons_succ, ih (s + a) k (by simpa using hk), List.take_succ_cons, List.sum_cons, add_assoc]

theorem excl_length (l : List M) (s : M) : (excl s l).length = l.length + 1 := by
  induction l generalizing s with
  | nil => rfl
  | cons a l ih => simp [excl, ih]

/-- The sum of a part of a list. -/
theorem sum_take_split (l : List M) (a b : Nat) (hab : a ≤ b) :
    (l.take b).sum = (l.take a).sum +
      ((List.range l.length).map (fun k => if a ≤ k ∧ k < b then l.getD k 0 else 0)).sum := by
  induction l generalizing a b with
  | nil => simp
  | cons v l ih =>
    rw [List.length_cons, List.range_succ_eq_map, List.map_cons, List.sum_cons, List.map_map]
    cases b with
    | zero =>
      obtain rfl : a = 0 := by omega
      simp [Function.comp_def]
    | succ b =>
      cases a with
      | zero =>
        have := ih 0 b (by omega)
        simp only [List.take_zero, List.sum_nil, zero_add] at this
        simp only [List.take_succ_cons, List.sum_cons, List.take_zero, List.sum_nil, zero_add, this]
        simp [Function.comp_def]
      | succ a =>
        have := ih a b (by omega)
        simp only [List.take_succ_cons, List.sum_cons, this]
        simp only [Function.comp_def, Nat.succ_eq_add_one, Nat.add_le_add_iff_right, Nat.add_lt_add_iff_right,
          List.getD_cons_succ]
        rw [if_neg (by omega), zero_add, add_assoc]

theorem sum_filter (l : List Nat) (P : Nat → Prop) [DecidablePred P] (f : Nat → M) :
    ((l.filter P).map f).sum = (l.map (fun j => if P j then f j else 0)).sum := by
  induction l with
  | nil => simp
  | cons a l ih =>
    by_cases h : P a
    · simp [h, ih]
    · simp [h, ih]

end

end Verif.Nbest
