import Verif.Fsa.Device.Iter

/-!
# All iterations
-/

namespace Verif.Fsa.Idv
open Verif.Ragged Verif.Util Verif.Fsa.Dn Verif.Fsa.Dp
variable {W : Type}
variable {Ta Tb : List (List (List (Arc W)))} {p : Args W}

/-- The states are those of the blocks `B`, one for each iteration, and the arcs those that leave the first `n`
states. -/
structure Inv (Ta Tb : List (List (List (Arc W)))) (p : Args W) (s0 : List (Nat × Nat)) (s : St)
    (B : List (List (Nat × Nat))) (n : Nat) : Prop where
  states : s.states = B.flatten
  iters : s.iters = psum (B.map List.length)
  first : B.headD [] = s0
  live : ∀ st ∈ s.states, Live Ta Tb p st
  bySeq : ∀ l ∈ B, l.Pairwise (fun x y => fsaOf Tb x ≤ fsaOf Tb y)
  arcsNodup : s.arcs.Nodup
  arcsSorted : s.arcs.Pairwise (fun c d => c.si ≤ d.si)
  arcs : ∀ c, c ∈ s.arcs ↔ c.si < n ∧ ∃ x y, Fits Ta Tb s.states c x y ∧ x.label = y.label
  hashNodup : (s.hash.map Prod.fst).Nodup
  hashVal : ∀ k o : Nat, s.hash.lookup k = some o → ∃ d, s.states[o]? = some d ∧ pkey Ta Tb p d = k
  hashLt : ∀ k ∈ s.hash.map Prod.fst, k < Ta.flatten.length * p.mult
  entered : ∀ c ∈ s.arcs, ∀ x y st d, s.states[c.si]? = some st → Leads Ta Tb p c x y st d → x.label ≠ -1 →
    ∃ o : Nat, s.hash.lookup (pkey Ta Tb p d) = some o
  reached : ∀ (o : Nat) (d : Nat × Nat), s.states[o]? = some d → s0.length ≤ o →
    s.hash.lookup (pkey Ta Tb p d) = some o ∧
    ∃ c ∈ s.arcs, c.si < o ∧ ∃ x y st, s.states[c.si]? = some st ∧ Leads Ta Tb p c x y st d ∧ x.label ≠ -1
  level : ∀ (i : Nat) (lev : Nat × Nat → Nat), (∀ st ∈ s0, fsaOf Tb st = i → lev st = 0) →
    (∀ c x y st d, Leads Ta Tb p c x y st d → fsaOf Tb st = i → x.label = y.label → x.label ≠ -1 → lev d = lev st + 1) →
    ∀ (t : Nat) (l : List (Nat × Nat)), B[t]? = some l → ∀ d ∈ l, fsaOf Tb d = i → lev d = t

theorem lookup_zip (l : List Nat) (e k j : Nat) (hn : l.Nodup) (hj : l[j]? = some k) :
    (l.zipIdx.map (fun x => (x.1, e + x.2))).lookup k = some (e + j) := by
  have key : ∀ (l : List Nat) (n j : Nat), l.Nodup → l[j]? = some k →
      ((l.zipIdx n).map (fun x => (x.1, e + x.2))).lookup k = some (e + (n + j)) := by
    intro l
    induction l with
    | nil => intro n j _ h; simp at h
    | cons x l ih =>
      intro n j hn hj
      obtain ⟨h1, h2⟩ := List.nodup_cons.mp hn
      rw [List.zipIdx_cons, List.map_cons, List.lookup_cons]
      cases j with
      | zero =>
        simp only [List.getElem?_cons_zero, Option.some.injEq] at hj
        simp [hj]
      | succ j =>
        rw [List.getElem?_cons_succ] at hj
        have hne : (k == x) = false := by
          simp only [beq_eq_false_iff_ne]
          rintro rfl
          exact h1 (List.mem_of_getElem? hj)
        rw [hne]
        simp only
        rw [ih (n + 1) j h2 hj]
        have e : e + (n + 1 + j) = e + (n + (j + 1)) := by omega
        rw [e]
  simpa using key l 0 j hn hj

theorem lookup_zip_none (l : List Nat) (e k : Nat) (hk : k ∉ l) :
    (l.zipIdx.map (fun x => (x.1, e + x.2))).lookup k = none := by
  rw [List.lookup_eq_none_iff]
  intro x hx
  obtain ⟨y, hy, rfl⟩ := List.mem_map.mp hx
  simp only [beq_eq_false_iff_ne, bne_iff_ne, ne_eq]
  rintro rfl
  exact hk (List.mem_of_getElem? (List.mem_zipIdx_iff_getElem?.mp hy))

theorem lookup_append_none {l l' : List (Nat × Nat)} {k : Nat} (h : l.lookup k = none) :
    (l ++ l').lookup k = l'.lookup k := by
  rw [List.lookup_append, h, Option.none_or]

theorem lookup_append_some {l l' : List (Nat × Nat)} {k o : Nat} (h : l.lookup k = some o) :
    (l ++ l').lookup k = some o := by
  rw [List.lookup_append, h, Option.some_or]

theorem zip_keys (news : List (Nat × Nat)) (K : Nat × Nat → Nat) (e : Nat) :
    news.zipIdx.map (fun x => (K x.1, e + x.2)) = (news.map K).zipIdx.map (fun x => (x.1, e + x.2)) := by
  rw [List.zipIdx_map, List.map_map]
  rfl

theorem fits_append {S S' : List (Nat × Nat)} {c : Cand} (h : c.si < S.length) (x y : Arc W) :
    Fits Ta Tb (S ++ S') c x y ↔ Fits Ta Tb S c x y := by
  unfold Fits
  rw [List.getElem?_append_left h]

theorem Inv.step {s0 : List (Nat × Nat)} {s : St} {B : List (List (Nat × Nat))} {n : Nat}
    (hc : Ctx Ta Tb p) (h : Inv Ta Tb p s0 s B n) (hB : B ≠ []) (b : Nat) (hb : b = n)
    (hn : n = B.dropLast.flatten.length)
    (news : List (Nat × Nat)) (A : List Cand) (ad : Added Ta Tb p s b news A) :
    Inv Ta Tb p s0 ⟨s.states ++ news, s.arcs ++ A,
        news.zipIdx.map (fun x => (pkey Ta Tb p x.1, s.states.length + x.2)) ++ s.hash,
        s.iters ++ [s.states.length + news.length]⟩ (B ++ [news]) s.states.length := by
  subst hb
  have hdrop : s.states.drop b = B.getLast hB := by
    rw [h.states, hn]
    conv_lhs => rw [← List.dropLast_append_getLast hB]
    rw [List.flatten_append, List.dropLast_append_getLast hB, List.drop_left]
    simp
  have hold : ∀ k : Nat, s.hash.lookup k ≠ none →
      (news.zipIdx.map (fun x => (pkey Ta Tb p x.1, s.states.length + x.2)) ++ s.hash).lookup k = s.hash.lookup k := by
    intro k hk
    apply lookup_append_none
    rw [zip_keys]
    apply lookup_zip_none
    intro hm
    obtain ⟨d, hd, rfl⟩ := List.mem_map.mp hm
    exact hk (ad.fresh d hd)
  have hnew : ∀ (j : Nat) (d : Nat × Nat), news[j]? = some d →
      (news.zipIdx.map (fun x => (pkey Ta Tb p x.1, s.states.length + x.2)) ++ s.hash).lookup (pkey Ta Tb p d) =
        some (s.states.length + j) := by
    intro j d hj
    apply lookup_append_some
    rw [zip_keys]
    apply lookup_zip _ _ _ _ ad.nodup
    rw [List.getElem?_map, hj]; rfl
  have hsi : ∀ c ∈ s.arcs, c.si < s.states.length := by
    intro c hcm
    obtain ⟨-, x, y, ⟨st, hst, -⟩, -⟩ := (h.arcs c).mp hcm
    exact (List.getElem?_eq_some_iff.mp hst).1
  have hsiA : ∀ c ∈ A, c.si < s.states.length := by
    intro c hcm
    obtain ⟨-, x, y, ⟨st, hst, -⟩, -⟩ := (ad.arcs c).mp hcm
    exact (List.getElem?_eq_some_iff.mp hst).1
  have hbn : b ≤ s.states.length := by
    rw [hn, h.states]
    conv_rhs => rw [← List.dropLast_append_getLast hB]
    rw [List.flatten_append, List.length_append]
    omega
  refine ⟨?_, ?_, ?_, ?_, ?_, ?_, ?_, ?_, ?_, ?_, ?_, ?_, ?_, ?_⟩
  · simp only
    rw [h.states]; simp
  · simp only
    rw [h.iters, List.map_append, h.states, List.length_flatten]
    apply List.ext_getElem?
    intro i
    rcases Nat.lt_trichotomy i (B.length + 1) with h1 | h1 | h1
    · rw [List.getElem?_append_left (by simp; omega), psum_get _ _ (by simp; omega), psum_get _ _ (by simp; omega),
        List.take_append_of_le_length (by simp; omega)]
    · subst h1
      rw [List.getElem?_append_right (by simp), psum_get _ _ (by simp), List.take_of_length_le (by simp)]
      simp
    · rw [List.getElem?_eq_none (by simp; omega), List.getElem?_eq_none (by simp; omega)]
  · rw [← h.first]
    cases B with
    | nil => exact absurd rfl hB
    | cons l B => rfl
  · intro st hst
    rcases List.mem_append.mp hst with h1 | h1
    · exact h.live st h1
    · exact ad.live st h1
  · intro l hl
    rcases List.mem_append.mp hl with h1 | h1
    · exact h.bySeq l h1
    · rw [List.mem_singleton.mp h1]
      apply ad.bySeq
      rw [hdrop]
      exact h.bySeq _ (List.getLast_mem hB)
  · simp only
    rw [List.nodup_append]
    refine ⟨h.arcsNodup, ad.arcsNodup, ?_⟩
    rintro c h1 _ h2 rfl
    have := ((h.arcs c).mp h1).1
    have := ((ad.arcs c).mp h2).1
    omega
  · simp only
    rw [List.pairwise_append]
    refine ⟨h.arcsSorted, ad.arcsSorted, ?_⟩
    intro c h1 d h2
    have := ((h.arcs c).mp h1).1
    have := ((ad.arcs d).mp h2).1
    omega
  · intro c
    simp only
    rw [List.mem_append, h.arcs, ad.arcs]
    constructor
    · rintro (⟨h1, x, y, h2, h3⟩ | ⟨h1, x, y, h2, h3⟩)
      · have hlt : c.si < s.states.length := by omega
        exact ⟨hlt, x, y, (fits_append hlt x y).mpr h2, h3⟩
      · have hlt : c.si < s.states.length := by
          obtain ⟨st, hst, -⟩ := h2
          exact (List.getElem?_eq_some_iff.mp hst).1
        exact ⟨hlt, x, y, (fits_append hlt x y).mpr h2, h3⟩
    · rintro ⟨h1, x, y, h2, h3⟩
      rw [fits_append h1] at h2
      rcases Nat.lt_or_ge c.si b with h4 | h4
      · exact Or.inl ⟨h4, x, y, h2, h3⟩
      · exact Or.inr ⟨h4, x, y, h2, h3⟩
  · simp only
    rw [List.map_append, List.map_map]
    have e : (Prod.fst ∘ fun x : (Nat × Nat) × Nat => (pkey Ta Tb p x.1, s.states.length + x.2)) =
        (pkey Ta Tb p) ∘ Prod.fst := rfl
    rw [e, ← List.map_map, List.zipIdx_map_fst, List.nodup_append]
    refine ⟨ad.nodup, h.hashNodup, ?_⟩
    rintro k h1 _ h2 rfl
    obtain ⟨d, hd, rfl⟩ := List.mem_map.mp h1
    have hf := ad.fresh d hd
    rw [List.lookup_eq_none_iff] at hf
    obtain ⟨x, hx, he⟩ := List.mem_map.mp h2
    have := hf x hx
    rw [he] at this
    simp at this
  · intro k o ho
    simp only at ho ⊢
    by_cases hk : s.hash.lookup k = none
    · rw [List.lookup_append, hk, Option.or_none, zip_keys] at ho
      by_cases hm : k ∈ news.map (pkey Ta Tb p)
      · obtain ⟨j, hj⟩ := List.getElem?_of_mem hm
        rw [lookup_zip _ _ _ _ ad.nodup hj] at ho
        obtain rfl := Option.some.inj ho
        rw [List.getElem?_map] at hj
        obtain ⟨d, hd, rfl⟩ := Option.map_eq_some_iff.mp hj
        exact ⟨d, by rw [List.getElem?_append_right (by omega), Nat.add_sub_cancel_left, hd], rfl⟩
      · rw [lookup_zip_none _ _ _ hm] at ho
        exact absurd ho (by simp)
    · rw [hold k hk] at ho
      obtain ⟨d, h1, h2⟩ := h.hashVal k o ho
      exact ⟨d, by rw [List.getElem?_append_left (List.getElem?_eq_some_iff.mp h1).1, h1], h2⟩
  · intro k hk
    simp only at hk
    rw [List.map_append, List.map_map] at hk
    rcases List.mem_append.mp hk with h1 | h1
    · obtain ⟨x, hx, rfl⟩ := List.mem_map.mp h1
      exact (ad.live _ (List.mem_of_getElem? (List.mem_zipIdx_iff_getElem?.mp hx))).key_lt hc
    · exact h.hashLt k h1
  · intro c hcm x y st d hst hl hne
    simp only at hcm hst ⊢
    rcases List.mem_append.mp hcm with h1 | h1
    · rw [List.getElem?_append_left (hsi c h1)] at hst
      obtain ⟨o, ho⟩ := h.entered c h1 x y st d hst hl hne
      exact ⟨o, by rw [hold _ (by rw [ho]; simp), ho]⟩
    · rw [List.getElem?_append_left (hsiA c h1)] at hst
      rcases ad.entered c h1 x y st d hst hl hne with h2 | h2
      · obtain ⟨j, hj⟩ := List.getElem?_of_mem h2
        exact ⟨_, hnew j d hj⟩
      · obtain ⟨o, ho⟩ := Option.ne_none_iff_exists'.mp h2
        exact ⟨o, by rw [hold _ h2, ho]⟩
  · intro o d ho hge
    simp only at ho ⊢
    rcases Nat.lt_or_ge o s.states.length with h1 | h1
    · rw [List.getElem?_append_left h1] at ho
      obtain ⟨e1, c, e2, e3, x, y, st, e4, e5, e6⟩ := h.reached o d ho hge
      refine ⟨by rw [hold _ (by rw [e1]; simp), e1], c, List.mem_append_left _ e2, e3, x, y, st, ?_, e5, e6⟩
      rw [List.getElem?_append_left (hsi c e2), e4]
    · rw [List.getElem?_append_right h1] at ho
      obtain ⟨c, e2, x, y, st, e4, e5, e6⟩ := ad.reached d (List.mem_of_getElem? ho)
      refine ⟨by rw [hnew _ d ho]; congr 1; omega, c, List.mem_append_right _ e2, ?_, x, y, st, ?_, e5, e6⟩
      · have := hsiA c e2; omega
      · rw [List.getElem?_append_left (hsiA c e2), e4]
  · intro i lev h0 h1 t l hl d hd hi
    rcases Nat.lt_or_ge t B.length with h2 | h2
    · rw [List.getElem?_append_left h2] at hl
      exact h.level i lev h0 h1 t l hl d hd hi
    · rw [List.getElem?_append_right h2, List.getElem?_singleton] at hl
      split at hl
      · obtain rfl := Option.some.inj hl
        obtain ⟨c, e2, x, y, st, e4, e5, e6⟩ := ad.reached d hd
        obtain ⟨g1, x', y', g2, g3⟩ := (ad.arcs c).mp e2
        obtain ⟨st', d', g4, g5⟩ := hc.leads h.live g2
        rw [e4] at g4
        obtain rfl := Option.some.inj g4
        obtain ⟨rfl, rfl, rfl⟩ := g5.unique e5
        have hst : st ∈ B.getLast hB := by
          rw [← hdrop]
          apply List.mem_of_getElem? (i := c.si - b)
          rw [List.getElem?_drop, show b + (c.si - b) = c.si by omega, e4]
        have hpos := List.length_pos_of_ne_nil hB
        have hlast := h.level i lev h0 h1 (B.length - 1) (B.getLast hB)
          (by rw [List.getLast_eq_getElem, List.getElem?_eq_getElem]) st hst (by rw [← g5.fsa]; exact hi)
        rw [h1 c _ _ st _ g5 (by rw [← g5.fsa]; exact hi) g3 e6, hlast]
        omega
      · exact absurd hl (by simp)

theorem Inv.hash_le {s0 : List (Nat × Nat)} {s : St} {B : List (List (Nat × Nat))} {n : Nat}
    (h : Inv Ta Tb p s0 s B n) : s.hash.length ≤ Ta.flatten.length * p.mult := by
  have h1 := List.subperm_of_subset h.hashNodup (l₂ := List.range (Ta.flatten.length * p.mult)) (by
    intro k hk
    exact List.mem_range.mpr (h.hashLt k hk))
  have := h1.length_le
  simpa using this

theorem psum_dropLast (B : List (List (Nat × Nat))) (l : List (Nat × Nat)) :
    (psum ((B ++ [l]).map List.length)).dropLast = psum (B.map List.length) := by
  apply List.ext_getElem?
  intro i
  rw [List.getElem?_dropLast]
  split
  · rename_i hi
    simp at hi
    rw [psum_get _ _ (by simp; omega), psum_get _ _ (by simp; omega), List.map_append,
      List.take_append_of_le_length (by simp; omega)]
  · rename_i hi
    simp at hi
    rw [List.getElem?_eq_none (by simp; omega)]

theorem Ctx.forward (hc : Ctx Ta Tb p) (order : Nat → Nat → List Nat) (ho : ∀ t n, (order t n).Perm (List.range n))
    (s0 : List (Nat × Nat)) (fuel : Nat) : ∀ (t : Nat) (s : St) (B : List (List (Nat × Nat))) (l : List (Nat × Nat)),
      B.length = t → Inv Ta Tb p s0 s (B ++ [l]) B.flatten.length →
      (l = [] → 1 ≤ fuel) → (l ≠ [] → Ta.flatten.length * p.mult - s.hash.length + 2 ≤ fuel) →
      ∃ s' B', forward p order fuel t s = some s' ∧ Inv Ta Tb p s0 s' B' s'.states.length := by
  induction fuel with
  | zero =>
    intro t s B l _ _ h1 h2
    by_cases hl : l = []
    · have := h1 hl; omega
    · have := h2 hl; omega
  | succ fuel ih =>
    intro t s B l ht h h1 h2
    have e1 : s.iters[t]? = some B.flatten.length := by
      rw [h.iters, psum_splits _ _ (by simp; omega), splits_eq_take, ← ht, List.map_append,
        List.take_append_of_le_length (by simp), List.take_of_length_le (by simp), ← List.length_flatten]
    have e2 : s.iters[t + 1]? = some s.states.length := by
      rw [h.iters, psum_splits _ _ (by simp; omega), splits_eq_take, ← ht, List.take_of_length_le (by simp),
        ← List.length_flatten, h.states]
    have hlen : s.states.length = B.flatten.length + l.length := by rw [h.states]; simp
    rw [Idv.forward]
    simp only [e1, e2, Option.bind_eq_bind, Option.bind_some]
    by_cases hl : l = []
    · subst hl
      rw [if_pos (by rw [hlen]; simp)]
      have hst : s.states = B.flatten := by rw [h.states]; simp
      refine ⟨_, B, rfl, ?_⟩
      refine ⟨hst, ?_, ?_, h.live, fun l hl => h.bySeq l (List.mem_append_left _ hl), h.arcsNodup, h.arcsSorted, ?_,
        h.hashNodup, h.hashVal, h.hashLt, h.entered, h.reached, ?_⟩
      · simp only
        rw [h.iters, psum_dropLast]
      · rw [← h.first]
        cases B <;> rfl
      · simp only
        rw [hst, ← hst]
        intro c
        rw [h.arcs, hst]
      · intro i lev h3 h4 t l hl
        exact h.level i lev h3 h4 t l (by
          rw [List.getElem?_append_left (List.getElem?_eq_some_iff.mp hl).1, hl])
    · rw [if_neg (by
        have : 0 < l.length := List.length_pos_of_ne_nil hl
        omega)]
      obtain ⟨news, A, g1, g2⟩ := hc.oneIter (order t) (ho t) s B.flatten.length h.live
      rw [g1, Option.bind_some]
      have hstep := h.step hc (by simp) B.flatten.length rfl (by rw [List.dropLast_concat]) news A g2
      have hh := hstep.hash_le
      simp only [List.length_append, List.length_map, List.length_zipIdx] at hh
      have hf := h2 hl
      refine ih (t + 1) _ (B ++ [l]) news (by simp [ht]) ?_ (fun _ => by omega) ?_
      · have e : s.states.length = (B ++ [l]).flatten.length := by rw [h.states]
        rw [← e]
        exact hstep
      · intro hne
        have := List.length_pos_of_ne_nil hne
        simp only [List.length_append, List.length_map, List.length_zipIdx]
        omega

end Verif.Fsa.Idv
