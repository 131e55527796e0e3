import Verif.Nbest.Tree
import Verif.Nbest.Lcp

/-!
# The tightest interval with a key
-/

namespace Verif.Nbest

variable {L : Nat → Nat} {n : Nat}

/-- `g` is the tightest interval around `[x, y]` that contains a key, or the top. -/
structure IsTight (L : Nat → Nat) (n : Nat) (C : Nat → Nat) (ivs : List Iv) (x y : Nat) (d : Nat) (g : Iv) : Prop where
  get : ivs[d]? = some g
  left : g.lb ≤ x
  right : y ≤ g.rb
  key : C g.lb < C (g.rb + 1) ∨ d + 1 = ivs.length
  tight : ∀ l a b, IsIv L n l a b → a ≤ x → y ≤ b → C a < C (b + 1) → a ≤ g.lb ∧ g.rb ≤ b

theorem tightest_eq {ivs : List Iv} {lp : List Nat} (hT : IsTree L n ivs lp) {cum : List Nat} {C : Nat → Nat}
    (hC : ∀ k, k ≤ n → cum[k]? = some (C k)) (suf : List Iv) :
    ∀ i, i + suf.length = ivs.length → (∀ (d : Nat), suf[d]? = ivs[i + d]?) →
    ∃ r, tightest cum suf i = some r ∧ r.length = suf.length ∧
      ∀ (d : Nat) f, suf[d]? = some f → ∃ (e : Nat) (g : Iv), r[d]? = some e ∧ IsTight L n C ivs f.lb f.rb e g := by
  induction suf with
  | nil => exact fun i _ _ => ⟨[], rfl, rfl, by simp⟩
  | cons f suf ih =>
    intro i hi hget
    rw [List.length_cons] at hi
    obtain ⟨rest, h1, h2, h3⟩ := ih (i + 1) (by omega) (fun d => by
      have := hget (d + 1)
      rw [List.getElem?_cons_succ] at this
      rw [this, show i + 1 + d = i + (d + 1) by omega])
    have hf : ivs[i]? = some f := by
      have := hget 0
      simpa using this.symm
    have hiv := hT.sound f (List.mem_of_getElem? hf)
    have hlt := hiv.lt
    have hbound := hiv.bound
    rw [tightest]
    simp only [Option.bind_eq_bind, h1, Option.bind_some, hC (f.rb + 1) (by omega), hC f.lb (by omega)]
    have hself : C f.lb < C (f.rb + 1) ∨ i + 1 = ivs.length → IsTight L n C ivs f.lb f.rb i f := by
      refine fun hk => ⟨hf, le_rfl, le_rfl, hk, fun l a b hl ha hb _ => ⟨ha, hb⟩⟩
    have htail : ∀ e, (∃ g, IsTight L n C ivs f.lb f.rb e g) → ∃ r, some (e :: rest) = some r ∧
        r.length = (f :: suf).length ∧ ∀ (d : Nat) f', (f :: suf)[d]? = some f' →
          ∃ (e : Nat) (g : Iv), r[d]? = some e ∧ IsTight L n C ivs f'.lb f'.rb e g := by
      rintro e ⟨g, hg⟩
      refine ⟨_, rfl, by simp [h2], ?_⟩
      intro d f' hd
      cases d with
      | zero =>
        simp only [List.getElem?_cons_zero, Option.some.injEq] at hd
        subst hd
        exact ⟨e, g, rfl, hg⟩
      | succ d => simpa using h3 d f' (by simpa using hd)
    by_cases hlast : i + 1 < ivs.length
    · obtain ⟨p, g, p1, p2, p3, p4, p5, p6, p7⟩ := hT.parent i f hf hlast
      simp only [p1]
      by_cases hab : C f.lb < C (f.rb + 1)
      · rw [if_pos hab]
        exact htail i ⟨f, hself (.inl hab)⟩
      · rw [if_neg hab, if_neg (by omega)]
        have hp : suf[p - (i + 1)]? = some g := by
          have := hget (p - (i + 1) + 1)
          rw [List.getElem?_cons_succ, show i + (p - (i + 1) + 1) = p by omega, p3] at this
          exact this
        obtain ⟨e, t, t1, t2⟩ := h3 _ g hp
        rw [t1, Option.bind_some]
        refine htail e ⟨t, t2.get, by have := t2.left; omega, by have := t2.right; omega, t2.key, ?_⟩
        intro l a b hl ha hb hk
        have hne : l ≠ f.lcp := by
          rintro rfl
          have q1 := hl.nested hiv (p := f.lb) ⟨ha, by omega⟩ ⟨le_rfl, by omega⟩ le_rfl
          have q2 := hiv.nested hl (p := f.lb) ⟨le_rfl, by omega⟩ ⟨ha, by omega⟩ le_rfl
          have ea : a = f.lb := by omega
          have eb : b = f.rb := by omega
          subst ea eb
          exact hab hk
        have q := p7 l a b hl ha hb hne
        exact t2.tight l a b hl q.1 q.2 hk
    · have hlen : i + 1 = ivs.length := by omega
      have hroot : f.parent = none := by
        obtain ⟨g, g1, -, -, -, g5⟩ := hT.root
        rw [List.getLast?_eq_getElem?, ← hlen, Nat.add_sub_cancel, hf] at g1
        obtain rfl := Option.some.inj g1
        exact g5
      simp only [hroot]
      exact htail i ⟨f, hself (.inr hlen)⟩

/-- `FindTightestNonemptyIntervals` finds the tightest intervals. -/
theorem findTightest_eq {ivs : List Iv} {lp : List Nat} (hT : IsTree L n ivs lp) {cum : List Nat} {C : Nat → Nat}
    (hlen : cum.length = n + 1) (hC : ∀ k, k ≤ n → cum[k]? = some (C k)) :
    ∃ r, findTightest n ivs cum lp = some r ∧ r.length = n ∧
      ∀ i, i < n → ∃ (d : Nat) (g : Iv), r[i]? = some d ∧ IsTight L n C ivs i i d g := by
  obtain ⟨t, h1, h2, h3⟩ := tightest_eq hT hC ivs 0 (by simp) (by simp)
  rw [findTightest, if_pos ⟨hlen, hT.leaf_len⟩]
  simp only [Option.bind_eq_bind, h1, Option.bind_some]
  obtain ⟨r, r1, r2, r3⟩ := mapM_get t lp (by
    intro d hd
    obtain ⟨i, hi⟩ := List.mem_iff_getElem?.mp hd
    have hil := (List.getElem?_eq_some_iff.mp hi).1
    obtain ⟨d', f, e1, e2, -⟩ := hT.leaf i (by rw [← hT.leaf_len]; exact hil)
    rw [hi] at e1
    obtain rfl := Option.some.inj e1
    rw [h2]; exact (List.getElem?_eq_some_iff.mp e2).1)
  refine ⟨r, r1, by rw [r2, hT.leaf_len], ?_⟩
  intro i hi
  obtain ⟨d, f, e1, e2, e3, e4⟩ := hT.leaf i hi
  obtain ⟨e, g, g1, g2⟩ := h3 d f e2
  refine ⟨e, g, by rw [r3 i d e1]; exact g1, g2.get, le_trans g2.left e3.1, le_trans e3.2 g2.right, g2.key, ?_⟩
  intro l a b hl ha hb hk
  have := e4 l a b hl ha hb
  exact g2.tight l a b hl this.1 this.2 hk

theorem exists_left (L : Nat → Nat) (l i : Nat) :
    ∃ a, a ≤ i ∧ (a = 0 ∨ L a < l) ∧ ∀ k, a < k → k ≤ i → l ≤ L k := by
  induction i with
  | zero => exact ⟨0, le_rfl, .inl rfl, fun k h1 h2 => by omega⟩
  | succ i ih =>
    by_cases h : L (i + 1) < l
    · exact ⟨i + 1, le_rfl, .inr h, fun k h1 h2 => by omega⟩
    · obtain ⟨a, h1, h2, h3⟩ := ih
      refine ⟨a, by omega, h2, fun k h4 h5 => ?_⟩
      by_cases hk : k = i + 1
      · subst hk; omega
      · exact h3 k h4 (by omega)

theorem exists_right (L : Nat → Nat) (n l : Nat) (d : Nat) : ∀ j, j + d + 1 = n →
    ∃ b, j ≤ b ∧ b < n ∧ (b + 1 = n ∨ L (b + 1) < l) ∧ ∀ k, j < k → k ≤ b → l ≤ L k := by
  induction d with
  | zero => exact fun j hj => ⟨j, le_rfl, by omega, .inl (by omega), fun k h1 h2 => by omega⟩
  | succ d ih =>
    intro j hj
    by_cases h : L (j + 1) < l
    · exact ⟨j, le_rfl, by omega, .inr h, fun k h1 h2 => by omega⟩
    · obtain ⟨b, h1, h2, h3, h4⟩ := ih (j + 1) (by omega)
      refine ⟨b, by omega, h2, h3, fun k h5 h6 => ?_⟩
      by_cases hk : k = j + 1
      · subst hk; omega
      · exact h4 k (by omega) h6

theorem exists_min (L : Nat → Nat) (i j : Nat) (hij : i < j) :
    ∃ k, i < k ∧ k ≤ j ∧ ∀ m, i < m → m ≤ j → L k ≤ L m := by
  induction j with
  | zero => omega
  | succ j ih =>
    by_cases h : i = j
    · exact ⟨j + 1, by omega, le_rfl, fun m h1 h2 => by
        obtain rfl : m = j + 1 := by omega
        exact le_rfl⟩
    · obtain ⟨k, h1, h2, h3⟩ := ih (by omega)
      by_cases hk : L k ≤ L (j + 1)
      · refine ⟨k, h1, by omega, fun m h4 h5 => ?_⟩
        by_cases hm : m = j + 1
        · subst hm; exact hk
        · exact h3 m h4 (by omega)
      · refine ⟨j + 1, by omega, le_rfl, fun m h4 h5 => ?_⟩
        by_cases hm : m = j + 1
        · subst hm; exact le_rfl
        · have := h3 m h4 (by omega); omega

/-- The interval of two positions. -/
theorem exists_interval (L : Nat → Nat) {n i j : Nat} (hij : i < j) (hj : j < n) :
    ∃ l a b, IsIv L n l a b ∧ a ≤ i ∧ j ≤ b ∧ ∀ m, (∀ k, i < k → k ≤ j → m ≤ L k) → m ≤ l := by
  obtain ⟨k, k1, k2, k3⟩ := exists_min L i j hij
  obtain ⟨a, a1, a2, a3⟩ := exists_left L (L k) i
  obtain ⟨b, b1, b2, b3, b4⟩ := exists_right L n (L k) (n - 1 - j) j (by omega)
  refine ⟨L k, a, b, ⟨by omega, b2, a2, b3, ?_, k, by omega, by omega, rfl⟩, a1, b1, fun m hm => hm k k1 k2⟩
  intro m h1 h2
  by_cases hm : m ≤ i
  · exact a3 m h1 hm
  · by_cases hm' : m ≤ j
    · exact k3 m (by omega) hm'
    · exact b4 m (by omega) h2

/-- The suffixes in their order and the table of common prefixes. -/
structure Ranks (x : Nat → Nat) (n : Nat) (σ L : Nat → Nat) : Prop where
  less : ∀ a b, a < b → b < n → Lt x (σ a) (σ b)
  lcp : ∀ a, a + 1 < n → IsLcp x (σ a) (σ (a + 1)) (L (a + 1))

theorem Ranks.common {x σ : Nat → Nat} (h : Ranks x n σ L) {a l : Nat} (d : Nat) : ∀ b, a + d + 1 = b → b < n →
    (Common x (σ a) (σ b) l ↔ ∀ k, a < k → k ≤ b → l ≤ L k) := by
  induction d with
  | zero =>
    intro b hb hbn
    obtain rfl : b = a + 1 := by omega
    rw [← (h.lcp a hbn).le_iff]
    constructor
    · intro hl k h1 h2
      obtain rfl : k = a + 1 := by omega
      exact hl
    · exact fun hk => hk (a + 1) (by omega) le_rfl
  | succ d ih =>
    intro b hb hbn
    obtain rfl : b = a + d + 1 + 1 := by omega
    have hstep := ih (a + d + 1) rfl (by omega)
    have hl := h.lcp (a + d + 1) hbn
    constructor
    · intro hc
      have h1 := Common.between (h.less a (a + d + 1) (by omega) (by omega)) (h.less (a + d + 1) _ (by omega) hbn) hc
      have h2 := hl.le_iff.mpr (h1.symm.trans hc)
      intro k k1 k2
      by_cases hk : k = a + d + 1 + 1
      · subst hk; exact h2
      · exact hstep.mp h1 k k1 (by omega)
    · intro hk
      have h1 := hstep.mpr (fun k k1 k2 => hk k k1 (by omega))
      have h2 := hl.le_iff.mp (hk _ (by omega) le_rfl)
      exact h1.trans h2

/-- The members of an interval are the suffixes that have a prefix of that length in common. -/
theorem Ranks.in_iff {x σ : Nat → Nat} (h : Ranks x n σ L) {f : Iv} (hf : IsIv L n f.lcp f.lb f.rb) {i j : Nat}
    (hi : In i f) (hj : j < n) : In j f ↔ Common x (σ i) (σ j) f.lcp := by
  have hin := hi.2
  have hin' := hi.1
  have hb := hf.bound
  rcases Nat.lt_trichotomy i j with hij | rfl | hij
  · rw [h.common (j - i - 1) j (by omega) hj]
    constructor
    · exact fun hjf k h1 h2 => hf.le k (by omega) (by have := hjf.2; omega)
    · intro hk
      refine ⟨by omega, ?_⟩
      by_contra hgt
      have := hk (f.rb + 1) (by omega) (by omega)
      rcases hf.right with h1 | h1 <;> omega
  · exact ⟨fun _ m _ => rfl, fun _ => hi⟩
  · have hsym : Common x (σ i) (σ j) f.lcp ↔ Common x (σ j) (σ i) f.lcp := ⟨Common.symm, Common.symm⟩
    rw [hsym, h.common (i - j - 1) i (by omega) (by omega)]
    constructor
    · exact fun hjf k h1 h2 => hf.le k (by have := hjf.1; omega) (by omega)
    · intro hk
      refine ⟨?_, by omega⟩
      by_contra hlt
      have := hk f.lb (by omega) hin'
      rcases hf.left with h1 | h1 <;> omega

/-- The value of the tightest interval is the length of the longest match with a key. -/
theorem Ranks.best {x σ : Nat → Nat} (h : Ranks x n σ L) {C : Nat → Nat} (hmono : ∀ a b, a ≤ b → b ≤ n → C a ≤ C b)
    {ivs : List Iv} {lp : List Nat} (hT : IsTree L n ivs lp) {i d : Nat} {g : Iv} (hi : i < n)
    (ht : IsTight L n C ivs i i d g) {j : Nat} (hj : j < n) (hne : i ≠ j) (hkey : C j < C (j + 1)) {l : Nat}
    (hc : Common x (σ i) (σ j) l) : l ≤ g.lcp := by
  have hg := hT.sound g (List.mem_of_getElem? ht.get)
  have hex : ∃ l' a b, IsIv L n l' a b ∧ a ≤ i ∧ i ≤ b ∧ a ≤ j ∧ j ≤ b ∧ l ≤ l' := by
    rcases Nat.lt_or_gt_of_ne hne with hij | hij
    · obtain ⟨l', a, b, h1, h2, h3, h4⟩ := exists_interval L hij hj
      exact ⟨l', a, b, h1, h2, by omega, by omega, h3, h4 l ((h.common (j - i - 1) j (by omega) hj).mp hc)⟩
    · obtain ⟨l', a, b, h1, h2, h3, h4⟩ := exists_interval L hij hi
      exact ⟨l', a, b, h1, by omega, h3, h2, by omega, h4 l ((h.common (i - j - 1) i (by omega) hi).mp hc.symm)⟩
  obtain ⟨l', a, b, h1, h2, h3, h4, h5, h6⟩ := hex
  have hb := h1.bound
  have hk : C a < C (b + 1) := by
    have e1 := hmono a j h4 (by omega)
    have e2 := hmono (j + 1) (b + 1) (by omega) (by omega)
    omega
  have hsub := ht.tight l' a b h1 h2 h3 hk
  obtain ⟨k, k1, k2, k3⟩ := hg.attained
  have := h1.le k (by omega) (by omega)
  omega

end Verif.Nbest
