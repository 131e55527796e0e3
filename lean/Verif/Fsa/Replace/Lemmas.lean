import Verif.Fsa.Replace.Model
import Verif.Fsa.Replace.Spec
import Verif.Fsa.Det.Tree

/-! The states and arcs of the result of `ReplaceFsa`. -/

namespace Verif.Fsa.Repl
open Verif.Util Verif.Fsa.Det
variable {W : Type}

theorem source_some {src : List (Fsa W)} {b l : Int} {i : Nat} {g : Fsa W} :
    source src b l = some (i, g) ↔ l = b + i ∧ src[i]? = some g := by
  unfold source
  split
  · rename_i h
    constructor
    · intro h2; simp at h2
    · rintro ⟨h2, _⟩; omega
  · rename_i h
    simp only [Option.map_eq_some_iff, Prod.mk.injEq]
    constructor
    · rintro ⟨g', h1, h2, rfl⟩
      refine ⟨by omega, ?_⟩
      rw [← h2]; exact h1
    · rintro ⟨h1, h2⟩
      have : (l - b).toNat = i := by omega
      exact ⟨g, by rw [this]; exact h2, this, rfl⟩

theorem source_none {src : List (Fsa W)} {b l : Int} :
    source src b l = none ↔ l < b ∨ b + src.length ≤ l := by
  unfold source
  split
  · rename_i h
    simp only [true_iff]; left; omega
  · rename_i h
    simp only [Option.map_eq_none_iff, List.getElem?_eq_none_iff]
    omega

theorem arcsBefore_eq (src : List (Fsa W)) (i : Nat) :
    splits (src.map Fsa.arcs) i = arcsBefore src i := by
  simp [splits, arcsBefore, ← List.map_take, Function.comp_def]

theorem row_arc {f : Fsa W} (hf : f.Valid) {s k : Nat} {a : Arc W} (hs : s < f.numStates)
    (h : (row f s)[k]? = some a) : f.arcs[splits f.rows s + k]? = some a ∧ a.src = s := by
  constructor
  · rw [← hf.rows_flatten, flatten_get _ s _ (rows_get f s hs) k (List.getElem?_eq_some_iff.1 h).1]
    exact h
  · have := List.mem_of_getElem? h
    simpa [row] using (List.mem_filter.1 this).2

theorem arc_row {f : Fsa W} (hf : f.Valid) {n : Nat} {a : Arc W} (h : f.arcs[n]? = some a) :
    a.src < f.numStates ∧ ∃ k, (row f a.src)[k]? = some a ∧ n = splits f.rows a.src + k := by
  have hm := List.mem_of_getElem? h
  have hs : a.src < f.numStates := by
    have := hf.src_lt a hm; simp only [Fsa.final] at this; omega
  rw [← hf.rows_flatten] at h
  obtain ⟨s, r, k, hr, hk, rfl⟩ := flatten_pos _ n (List.getElem?_eq_some_iff.1 h).1
  have hs2 : s < f.numStates := by have := (List.getElem?_eq_some_iff.1 hr).1; simpa using this
  rw [flatten_get _ s r hr k hk] at h
  have e := rows_src f s r hr a (List.mem_of_getElem? h)
  subst e
  rw [rows_get f _ hs] at hr
  obtain rfl := Option.some.inj hr
  exact ⟨hs, k, h, rfl⟩

section
variable (src : List (Fsa W)) (b : Int) (f : Fsa W)

theorem fooRows_get (s : Nat) (hs : s < f.numStates) :
    (fooRows src b f)[s]? = some (fooRow src b f s) := by simp [fooRows, hs]

theorem foo_orig (s : Nat) (hs : s < f.numStates) :
    (fooRows src b f).flatten[splits (fooRows src b f) s]? = some [OState.orig s] := by
  have := flatten_get (fooRows src b f) s _ (fooRows_get src b f s hs) 0 (by simp [fooRow])
  rw [Nat.add_zero] at this
  rw [this]; rfl

theorem foo_mid (s k : Nat) (a : Arc W) (hs : s < f.numStates) (hk : (row f s)[k]? = some a) :
    (fooRows src b f).flatten[splits (fooRows src b f) s + (k + 1)]? =
      some ((List.range (midLen src b a)).map (OState.mid s k)) := by
  have hl := (List.getElem?_eq_some_iff.1 hk).1
  have := flatten_get (fooRows src b f) s _ (fooRows_get src b f s hs) (k + 1)
    (by simp [fooRow]; omega)
  rw [this]
  simp [fooRow, hk]

/-- The number of the state `j` of the FSA that replaces the `k`-th arc of state `s`. -/
def midNum (s k j : Nat) : Nat :=
  splits (fooRows src b f).flatten (splits (fooRows src b f) s + (k + 1)) + j

theorem bias_eq (s k : Nat) : origNum src b f s + bias src b f s k = midNum src b f s k 0 := by
  unfold origNum bias midNum
  have := splits_mono (fooRows src b f).flatten
    (show splits (fooRows src b f) s ≤ splits (fooRows src b f) s + k + 1 by omega)
  have e : splits (fooRows src b f) s + (k + 1) = splits (fooRows src b f) s + k + 1 := by omega
  rw [e]
  omega

theorem midNum_sub (s k j t : Nat) : midNum src b f s k j - j + t = midNum src b f s k t := by
  unfold midNum; omega

theorem ostates_orig (s : Nat) (hs : s < f.numStates) :
    (ostates src b f)[origNum src b f s]? = some (OState.orig s) := by
  have := flatten_get (fooRows src b f).flatten _ _ (foo_orig src b f s hs) 0 (by simp)
  rw [Nat.add_zero] at this
  unfold ostates origNum
  rw [this]; rfl

theorem ostates_mid (s k j : Nat) (a : Arc W) (hs : s < f.numStates) (hk : (row f s)[k]? = some a)
    (hj : j < midLen src b a) :
    (ostates src b f)[midNum src b f s k j]? = some (OState.mid s k j) := by
  have := flatten_get (fooRows src b f).flatten _ _ (foo_mid src b f s k a hs hk) j (by simpa using hj)
  unfold ostates midNum
  rw [this]; simp [hj]

theorem ostates_cases (pos : Nat) (o : OState) (h : (ostates src b f)[pos]? = some o) :
    (∃ s, s < f.numStates ∧ o = .orig s ∧ pos = origNum src b f s) ∨
    (∃ s k j a, s < f.numStates ∧ (row f s)[k]? = some a ∧ j < midLen src b a ∧
      o = .mid s k j ∧ pos = midNum src b f s k j) := by
  obtain ⟨φ, r, j, hr, hj, hp⟩ := flatten_pos _ pos (List.getElem?_eq_some_iff.mp h).1
  obtain ⟨s, r', k, hr', hk, hφ⟩ := flatten_pos _ φ (List.getElem?_eq_some_iff.mp hr).1
  have hs : s < f.numStates := by
    have := (List.getElem?_eq_some_iff.mp hr').1; simpa [fooRows] using this
  rw [fooRows_get src b f s hs] at hr'
  obtain rfl := Option.some.inj hr'
  cases k with
  | zero =>
    rw [Nat.add_zero] at hφ
    subst hφ
    rw [foo_orig src b f s hs] at hr
    obtain rfl := Option.some.inj hr
    have hj0 : j = 0 := by simpa using hj
    subst hj0
    have hpos : pos = origNum src b f s := by rw [hp]; rfl
    rw [hpos, ostates_orig src b f s hs] at h
    exact Or.inl ⟨s, hs, (Option.some.inj h).symm, hpos⟩
  | succ k =>
    have hk' : k < (row f s).length := by simp [fooRow] at hk; omega
    have ha := List.getElem?_eq_getElem hk'
    subst hφ
    rw [foo_mid src b f s k _ hs ha] at hr
    obtain rfl := Option.some.inj hr
    have hj' : j < midLen src b (row f s)[k] := by simpa using hj
    have hpos : pos = midNum src b f s k j := by rw [hp]; rfl
    rw [hpos, ostates_mid src b f s k j _ hs ha hj'] at h
    exact Or.inr ⟨s, k, j, _, hs, ha, hj', (Option.some.inj h).symm, hpos⟩

theorem origNum_inj (s t : Nat) (hs : s < f.numStates) (ht : t < f.numStates)
    (h : origNum src b f s = origNum src b f t) : s = t := by
  have h1 := ostates_orig src b f s hs
  have h2 := ostates_orig src b f t ht
  rw [h, h2] at h1
  simpa using h1.symm

theorem mid_ne_orig (s k j t : Nat) (a : Arc W) (hs : s < f.numStates) (hk : (row f s)[k]? = some a)
    (hj : j < midLen src b a) (ht : t < f.numStates) :
    midNum src b f s k j ≠ origNum src b f t := by
  intro h
  have h1 := ostates_mid src b f s k j a hs hk hj
  have h2 := ostates_orig src b f t ht
  rw [h, h2] at h1
  simp at h1

theorem origNum_zero : origNum src b f 0 = 0 := by simp [origNum]

variable (o : Nat)

theorem oarcsOf_src (pos : Nat) (os : OState) (x : Arc (W × Int × Int))
    (hx : x ∈ oarcsOf src b o f pos os) : x.src = pos := by
  cases os with
  | orig s =>
    obtain ⟨k, hk, rfl⟩ := List.mem_mapIdx.mp hx
    unfold indexArc
    split <;> rfl
  | mid s k j =>
    unfold oarcsOf at hx
    dsimp only at hx
    split at hx
    · simp at hx
    · split at hx
      · simp at hx
      · obtain ⟨m, hm, rfl⟩ := List.mem_mapIdx.mp hx
        rfl

/-- The arc at a position. -/
theorem tagged_get (n : Nat) (x : Arc (W × Int × Int)) :
    (replaceTagged src b o f).arcs[n]? = some x ↔
      ∃ pos os m, (ostates src b f)[pos]? = some os ∧ (oarcsOf src b o f pos os)[m]? = some x ∧
        n = splits ((ostates src b f).mapIdx (oarcsOf src b o f)) pos + m := by
  unfold replaceTagged
  dsimp only
  constructor
  · intro h
    obtain ⟨pos, r, m, hr, hm, rfl⟩ := flatten_pos _ n (List.getElem?_eq_some_iff.1 h).1
    rw [flatten_get _ pos r hr m hm] at h
    rw [List.getElem?_mapIdx, Option.map_eq_some_iff] at hr
    obtain ⟨os, h1, rfl⟩ := hr
    exact ⟨pos, os, m, h1, h, rfl⟩
  · rintro ⟨pos, os, m, h1, h2, rfl⟩
    rw [flatten_get _ pos (oarcsOf src b o f pos os) (by rw [List.getElem?_mapIdx, h1]; rfl) m
      (List.getElem?_eq_some_iff.1 h2).1]
    exact h2

theorem from_orig (s : Nat) (hs : s < f.numStates) (n : Nat) (x : Arc (W × Int × Int)) :
    ((replaceTagged src b o f).arcs[n]? = some x ∧ x.src = origNum src b f s) ↔
      ∃ k a, (row f s)[k]? = some a ∧ x = indexArc src b o f (origNum src b f s) s k a ∧
        n = splits ((ostates src b f).mapIdx (oarcsOf src b o f)) (origNum src b f s) + k := by
  rw [tagged_get]
  constructor
  · rintro ⟨⟨pos, os, m, h1, h2, h3⟩, h4⟩
    rw [oarcsOf_src src b f o pos os x (List.mem_of_getElem? h2)] at h4
    subst h4
    rw [ostates_orig src b f s hs] at h1
    obtain rfl := Option.some.inj h1
    unfold oarcsOf at h2
    rw [List.getElem?_mapIdx, Option.map_eq_some_iff] at h2
    obtain ⟨a, h5, rfl⟩ := h2
    exact ⟨m, a, h5, rfl, h3⟩
  · rintro ⟨k, a, h1, rfl, h3⟩
    have h2 : (oarcsOf src b o f (origNum src b f s) (.orig s))[k]? =
        some (indexArc src b o f (origNum src b f s) s k a) := by
      unfold oarcsOf
      rw [List.getElem?_mapIdx, h1]; rfl
    exact ⟨⟨_, _, k, ostates_orig src b f s hs, h2, h3⟩,
      oarcsOf_src src b f o _ _ _ (List.mem_of_getElem? h2)⟩

theorem from_mid (s k j : Nat) (a : Arc W) (i : Nat) (g : Fsa W) (hs : s < f.numStates)
    (hk : (row f s)[k]? = some a) (hg : source src b a.label = some (i, g)) (hj : j < g.numStates - 1)
    (n : Nat) (x : Arc (W × Int × Int)) :
    ((replaceTagged src b o f).arcs[n]? = some x ∧ x.src = midNum src b f s k j) ↔
      ∃ m c, (row g j)[m]? = some c ∧ x = srcArc src b f (midNum src b f s k j) j a i g m c ∧
        n = splits ((ostates src b f).mapIdx (oarcsOf src b o f)) (midNum src b f s k j) + m := by
  have hj2 : j < midLen src b a := by simp only [midLen, hg]; exact hj
  rw [tagged_get]
  constructor
  · rintro ⟨⟨pos, os, m, h1, h2, h3⟩, h4⟩
    rw [oarcsOf_src src b f o pos os x (List.mem_of_getElem? h2)] at h4
    subst h4
    rw [ostates_mid src b f s k j a hs hk hj2] at h1
    obtain rfl := Option.some.inj h1
    simp only [oarcsOf, hk, hg] at h2
    rw [List.getElem?_mapIdx, Option.map_eq_some_iff] at h2
    obtain ⟨c, h5, rfl⟩ := h2
    exact ⟨m, c, h5, rfl, h3⟩
  · rintro ⟨m, c, h1, rfl, h3⟩
    have h2 : (oarcsOf src b o f (midNum src b f s k j) (.mid s k j))[m]? =
        some (srcArc src b f (midNum src b f s k j) j a i g m c) := by
      simp only [oarcsOf, hk, hg]
      rw [List.getElem?_mapIdx, h1]; rfl
    exact ⟨⟨_, _, m, ostates_mid src b f s k j a hs hk hj2, h2, h3⟩, rfl⟩

end

/-- The final state of the result is the old final state. -/
theorem replace_final {f : Fsa W} (hf : f.Valid) (src : List (Fsa W)) (b : Int) :
    (ostates src b f).length = origNum src b f f.final + 1 ∧ 1 ≤ origNum src b f f.final := by
  have h2 := hf.two
  have hrow : row f f.final = [] := by
    unfold row
    rw [List.filter_eq_nil_iff]
    intro a ha
    have := hf.src_lt a ha
    simp; omega
  obtain ⟨n, hn⟩ : ∃ n, f.numStates = n + 1 := ⟨f.numStates - 1, by omega⟩
  have hfin : f.final = n := by simp only [Fsa.final]; omega
  rw [hfin] at hrow ⊢
  have hfl : (fooRows src b f).length = n + 1 := by simp [fooRows, hn]
  have e1 : (fooRows src b f).flatten.length = splits (fooRows src b f) n + 1 := by
    rw [← splits_length, hfl, splits_succ _ n _ (fooRows_get src b f n (by omega))]
    simp [fooRow, hrow]
  constructor
  · unfold ostates origNum
    rw [← splits_length, e1, splits_succ _ _ _ (foo_orig src b f n (by omega))]
    rfl
  · rcases Nat.eq_zero_or_pos (origNum src b f n) with h | h
    · rw [← origNum_zero src b f] at h
      have := origNum_inj src b f n 0 (by omega) (by omega) h
      omega
    · exact h

end Verif.Fsa.Repl
