import Verif.Nbest.Interval

/-!
# The tree of intervals
-/

namespace Verif.Nbest

variable {L : Nat → Nat} {n : Nat}

/-- The intervals are all there, children before parents, and the references to parents go to the
tightest interval around. -/
structure IsTree (L : Nat → Nat) (n : Nat) (ivs : List Iv) (lp : List Nat) : Prop where
  sound : ∀ f ∈ ivs, IsIv L n f.lcp f.lb f.rb
  complete : ∀ l a b, IsIv L n l a b → ∃ f ∈ ivs, f.lcp = l ∧ f.lb = a ∧ f.rb = b
  sorted : ivs.Pairwise (fun f g => f.rb < g.rb ∨ f.rb = g.rb ∧ g.lcp < f.lcp)
  root : ∃ f, ivs.getLast? = some f ∧ f.lcp = 0 ∧ f.lb = 0 ∧ f.rb = n - 1 ∧ f.parent = none
  parent : ∀ (d : Nat) f, ivs[d]? = some f → d + 1 < ivs.length → ∃ (p : Nat) (g : Iv), f.parent = some p ∧ d < p ∧
    ivs[p]? = some g ∧ g.lcp < f.lcp ∧ g.lb ≤ f.lb ∧ f.rb ≤ g.rb ∧
    ∀ l a b, IsIv L n l a b → a ≤ f.lb → f.rb ≤ b → l ≠ f.lcp → a ≤ g.lb ∧ g.rb ≤ b
  leaf_len : lp.length = n
  leaf : ∀ i, i < n → ∃ (d : Nat) (f : Iv), lp[i]? = some d ∧ ivs[d]? = some f ∧ In i f ∧
    ∀ l a b, IsIv L n l a b → a ≤ i → i ≤ b → a ≤ f.lb ∧ f.rb ≤ b

theorem mapM_spec {α β : Type} (g : α → Option β) (l : List α) (h : ∀ a ∈ l, ∃ b, g a = some b) :
    ∃ r, l.mapM g = some r ∧ r.length = l.length ∧
      ∀ (d : Nat) b, r[d]? = some b → ∃ a, l[d]? = some a ∧ g a = some b := by
  induction l with
  | nil => exact ⟨[], rfl, rfl, by simp⟩
  | cons a l ih =>
    obtain ⟨r, h1, h2, h3⟩ := ih (fun a ha => h a (List.mem_cons_of_mem _ ha))
    obtain ⟨b, hb⟩ := h a List.mem_cons_self
    refine ⟨b :: r, by simp [List.mapM_cons, hb, h1], by simp [h2], ?_⟩
    intro d c hd
    cases d with
    | zero =>
      simp only [List.getElem?_cons_zero, Option.some.injEq] at hd
      subst hd
      exact ⟨a, rfl, hb⟩
    | succ d => simpa using h3 d c (by simpa using hd)

/-- `CreateLcpIntervalArray` returns the tree. -/
theorem createLcpIntervals_tree {lcp : List Nat} (hn : 2 ≤ n) (hg : ∀ i, i < n → lcp[i]? = some (L i))
    (hlast : L (n - 1) = 0) : ∃ ivs lp, createLcpIntervals lcp n = some (ivs, lp) ∧ IsTree L n ivs lp := by
  obtain ⟨stack, s, hloop, ⟨ids, cl, hc⟩, hl, hcompl, hout_lt, hout_compl⟩ :=
    ivLoop_inv hg (n - 1) 1 _ _ (by omega) (by omega) (inv_start (L := L) (n := n))
  have hzero : ∀ e ∈ stack, e.lcp = 0 := by
    intro e he
    have ho := hc.opn e he
    have := ho.lt
    by_cases h1 : e.lb < n - 1
    · have := ho.le (n - 1) h1 (by omega); omega
    · rcases ho.attained with h2 | ⟨k, h2, h3, -⟩
      · exact h2.1
      · omega
  have hstack : stack = [⟨0, 0, n - 1, some 0⟩] := by
    match stack, hc.root, hc.sorted, hzero with
    | [e], hr, _, _ => simpa using hr
    | e :: f :: st, _, hs, hz =>
      have h1 := (List.pairwise_cons.mp hs).1 f List.mem_cons_self
      have h2 := hz e List.mem_cons_self
      omega
  subst hstack
  have hpl := hc.perm.length_eq
  simp only [List.length_append, List.length_map, List.length_cons, List.length_range, List.length_nil] at hpl
  have hnext := hc.next_le
  have hcl := hc.cl_len
  have hol := hc.order_len
  have hleaf := hc.leaf.push (by omega) (fun t ht => by have := hout_lt t ht; omega)
  rw [show n - 1 + 1 = n by omega] at hleaf
  set root : Iv := ⟨0, 0, n - 1, none⟩ with hroot
  obtain ⟨lv, lp, hpop, hleaf'⟩ := hleaf.pop root (by rw [hroot]; simp only; omega)
  have hnd : ((([⟨0, 0, n - 1, some 0⟩] : List Iv).map Iv.parent) ++ cl.map some).Nodup := by
    rw [hc.perm.nodup_iff]
    exact List.nodup_range.map (fun a b h => Option.some.inj h)
  have hnotin : 0 ∉ cl := by
    intro hin
    have h1 := (List.nodup_append.mp hnd).2.2 (some 0) (by simp) (some 0) (List.mem_map_of_mem hin)
    exact h1 rfl
  have hids0 : ids[0]? = some (0, 0) := by
    obtain ⟨c, h1, h2⟩ := hc.ids_stack _ List.mem_cons_self
    obtain rfl := Option.some.inj h1
    exact h2
  have hlen' : (s.out ++ [root]).length = s.next := by simp; omega
  -- where the interval with a given number is
  have hfind : ∀ (c l lb : Nat), ids[c]? = some (l, lb) → ∃ (d : Nat) (g : Iv), (s.order.set 0 s.out.length)[c]? = some d ∧
      (s.out ++ [root])[d]? = some g ∧ g.lcp = l ∧ g.lb = lb := by
    intro c l lb hcid
    have hclt : c < s.next := by rw [← hc.ids_len]; exact (List.getElem?_eq_some_iff.mp hcid).1
    by_cases h0 : c = 0
    · subst h0
      rw [hids0] at hcid
      obtain ⟨rfl, rfl⟩ := Prod.mk.inj (Option.some.inj hcid)
      exact ⟨s.out.length, root, by rw [List.getElem?_set_self (by omega)], by simp, rfl, rfl⟩
    · have hin : some c ∈ (([⟨0, 0, n - 1, some 0⟩] : List Iv).map Iv.parent) ++ cl.map some := by
        rw [hc.perm.mem_iff]
        exact List.mem_map_of_mem (List.mem_range.mpr hclt)
      have hin' : c ∈ cl := by
        rcases List.mem_append.mp hin with h | h
        · simp at h; omega
        · obtain ⟨c', h1, h2⟩ := List.mem_map.mp h
          obtain rfl := Option.some.inj h2
          exact h1
      obtain ⟨d, hd⟩ := List.mem_iff_getElem?.mp hin'
      obtain ⟨g1, g, g2, g3⟩ := hc.closed d c hd
      rw [hcid] at g3
      obtain ⟨rfl, rfl⟩ := Prod.mk.inj (Option.some.inj g3)
      refine ⟨d, g, by rw [List.getElem?_set_ne (Ne.symm h0)]; exact g1, ?_, rfl, rfl⟩
      rw [List.getElem?_append_left (List.getElem?_eq_some_iff.mp g2).1]; exact g2
  obtain ⟨out, hfix, hfl, hfx⟩ := mapM_spec (fun f : Iv => do
      let c ← f.parent
      let d ← (s.order.set 0 s.out.length)[c]?
      some { f with parent := some d }) s.out (by
    intro f hf
    obtain ⟨d, hd⟩ := List.mem_iff_getElem?.mp hf
    obtain ⟨c, l, lb, h1, h2, -⟩ := hc.par d f hd (.inl hl)
    obtain ⟨d', g, h3, -⟩ := hfind c l lb h2
    exact ⟨_, by simp only [h1, Option.bind_eq_bind, Option.bind_some, h3]; rfl⟩)
  refine ⟨out ++ [root], lp, ?_, ?_⟩
  · rw [createLcpIntervals, hloop]
    simp only [Option.bind_eq_bind, Option.bind_some]
    rw [if_pos (by omega), write_some _ _ _ (by omega), Option.bind_some]
    rw [show popLeaves 0 s.out.length ((n - 1) :: s.leaves) s.leafParent = some (lv, lp) from hpop, Option.bind_some,
      if_pos (by omega)]
    rw [show fixParents (s.order.set 0 s.out.length) s.out = some out from hfix, Option.bind_some]
  · have hsame : List.Forall₂ Same out s.out := by
      rw [List.forall₂_iff_get]
      refine ⟨hfl, ?_⟩
      intro d h1 h2
      obtain ⟨a, ha1, ha2⟩ := hfx d out[d] (List.getElem?_eq_getElem h1)
      rw [List.getElem?_eq_getElem h2] at ha1
      obtain rfl := Option.some.inj ha1
      obtain ⟨c, -, ha3⟩ := Option.bind_eq_some_iff.mp ha2
      obtain ⟨d', -, ha4⟩ := Option.bind_eq_some_iff.mp ha3
      rw [List.get_eq_getElem, List.get_eq_getElem, ← Option.some.inj ha4]
      exact ⟨rfl, rfl, rfl⟩
    have hsame' : List.Forall₂ Same (out ++ [root]) (s.out ++ [root]) := by
      refine List.rel_append hsame (.cons ⟨rfl, rfl, rfl⟩ .nil)
    have hlen : out.length = s.out.length := hfl
    have hget : ∀ (d : Nat) f, (out ++ [root])[d]? = some f → ∃ g, (s.out ++ [root])[d]? = some g ∧ Same f g := by
      intro d f hd
      obtain ⟨hd1, rfl⟩ := List.getElem?_eq_some_iff.mp hd
      have hd2 : d < (s.out ++ [root]).length := by rw [← hsame'.length_eq]; exact hd1
      exact ⟨_, List.getElem?_eq_getElem hd2, List.Forall₂.get hsame' hd1 hd2⟩
    have hget' : ∀ (d : Nat) g, (s.out ++ [root])[d]? = some g → ∃ f, (out ++ [root])[d]? = some f ∧ Same f g := by
      intro d f hd
      obtain ⟨hd1, rfl⟩ := List.getElem?_eq_some_iff.mp hd
      have hd2 : d < (out ++ [root]).length := by rw [hsame'.length_eq]; exact hd1
      exact ⟨_, List.getElem?_eq_getElem hd2, List.Forall₂.get hsame' hd2 hd1⟩
    have hrootiv : IsIv L n 0 0 (n - 1) := by
      refine ⟨by omega, by omega, .inl rfl, .inl (by omega), fun k _ _ => Nat.zero_le _, n - 1, by omega, le_rfl, hlast⟩
    have hsound0 : ∀ f ∈ s.out ++ [root], IsIv L n f.lcp f.lb f.rb := by
      intro f hf
      rcases List.mem_append.mp hf with hf | hf
      · exact (hc.out_iv f hf).1
      · rw [List.mem_singleton] at hf; subst hf; exact hrootiv
    have hsound : ∀ f ∈ out ++ [root], IsIv L n f.lcp f.lb f.rb := by
      intro f hf
      obtain ⟨d, hd⟩ := List.mem_iff_getElem?.mp hf
      obtain ⟨g, hg, hs⟩ := hget d f hd
      rw [hs.1, hs.2.1, hs.2.2]; exact hsound0 g (List.mem_of_getElem? hg)
    have hcomplete : ∀ l a b, IsIv L n l a b → ∃ f ∈ out ++ [root], f.lcp = l ∧ f.lb = a ∧ f.rb = b := by
      intro l a b hiv
      by_cases hb : b + 1 < n
      · obtain ⟨g, hg, g1, g2, g3⟩ := hout_compl l a b hiv hb
        obtain ⟨d, hd⟩ := List.mem_iff_getElem?.mp (List.mem_append_left [root] hg)
        obtain ⟨f, hf, hs⟩ := hget' d g hd
        exact ⟨f, List.mem_of_getElem? hf, by rw [hs.1, g1], by rw [hs.2.1, g2], by rw [hs.2.2, g3]⟩
      · have hbn : b = n - 1 := by have := hiv.bound; omega
        subst hbn
        have hl0 : l = 0 := by
          have := hiv.le (n - 1) hiv.lt le_rfl; omega
        subst hl0
        have ha0 : a = 0 := by
          rcases hiv.left with h | h <;> omega
        subst ha0
        exact ⟨root, by simp, rfl, rfl, rfl⟩
    have hsorted0 : (s.out ++ [root]).Pairwise (fun f g => f.rb < g.rb ∨ f.rb = g.rb ∧ g.lcp < f.lcp) := by
      rw [List.pairwise_append]
      refine ⟨hc.out_sorted, List.pairwise_singleton _ _, ?_⟩
      intro f hf g hg
      rw [List.mem_singleton] at hg; subst hg
      have := hout_lt f hf
      left; rw [hroot]; simp only; omega
    have hsorted : (out ++ [root]).Pairwise (fun f g => f.rb < g.rb ∨ f.rb = g.rb ∧ g.lcp < f.lcp) := by
      rw [List.pairwise_iff_getElem]
      intro x y hx hy hxy
      have hll := hsame'.length_eq
      have := List.pairwise_iff_getElem.mp hsorted0 x y (by omega) (by omega) hxy
      have h1 := List.Forall₂.get hsame' hx (by omega)
      have h2 := List.Forall₂.get hsame' hy (by omega)
      simp only [List.get_eq_getElem] at h1 h2
      rw [h1.1, h1.2.2, h2.1, h2.2.2]; exact this
    refine ⟨hsound, hcomplete, hsorted, ⟨root, by simp, rfl, rfl, rfl, rfl⟩, ?_, hleaf'.len, ?_⟩
    · intro d f hd hdl
      rw [List.length_append, List.length_singleton] at hdl
      have hd' : out[d]? = some f := by rw [List.getElem?_append_left (by omega)] at hd; exact hd
      obtain ⟨f0, hf0, hfe⟩ := hfx d f hd'
      obtain ⟨c, l, lb, h1, h2, h3⟩ := hc.par d f0 hf0 (.inl hl)
      obtain ⟨p, g0, e1, e2, e3, e4⟩ := hfind c l lb h2
      simp only [h1, Option.bind_eq_bind, Option.bind_some, e1, Option.some.injEq] at hfe
      obtain ⟨g, hg, hs⟩ := hget' p g0 e2
      have hiv0 := hc.out_iv f0 (List.mem_of_getElem? hf0)
      have hiv0' := hiv0.1
      have hivg := hsound g (List.mem_of_getElem? hg)
      have hlcpf : f.lcp = f0.lcp := by rw [← hfe]
      have hlbf : f.lb = f0.lb := by rw [← hfe]
      have hrbf : f.rb = f0.rb := by rw [← hfe]
      have hright : L (f0.rb + 1) < f0.lcp := by
        rcases hiv0'.right with h | h
        · omega
        · exact h
      have hglcp : g.lcp = max (if f0.lb = 0 then 0 else L f0.lb) (L (f0.rb + 1)) := by
        rw [hs.1, e3]; exact h3.value
      have hglb : g.lb = lb := by rw [hs.2.1, e4]
      have hleft := h3.left
      have hlt : g.lcp < f0.lcp := by
        rw [hglcp, max_lt_iff]
        refine ⟨?_, hright⟩
        split
        · omega
        · rename_i h0
          exact hiv0'.left.resolve_left h0
      have hrb : f0.rb ≤ g.rb := by
        by_contra hgt
        have h4 := hivg.lt
        have h5 : L (g.rb + 1) < g.lcp := by
          rcases hivg.right with h | h
          · omega
          · exact h
        have h6 : g.lcp ≤ L (g.rb + 1) := by
          by_cases h7 : g.rb + 1 ≤ f0.lb
          · have := h3.le (g.rb + 1) (by omega) h7
            rw [hs.1, e3]; exact this
          · have := hiv0'.le (g.rb + 1) (by omega) (by omega)
            omega
        omega
      have hdp : d < p := by
        by_contra hge
        rcases Nat.eq_or_lt_of_le (show p ≤ d by omega) with h | h
        · subst h
          rw [hd] at hg
          obtain rfl := Option.some.inj hg
          omega
        · obtain ⟨q1, q2⟩ := List.getElem?_eq_some_iff.mp hg
          obtain ⟨q3, q4⟩ := List.getElem?_eq_some_iff.mp hd
          have := List.pairwise_iff_getElem.mp hsorted p d q1 q3 h
          rw [q2, q4] at this
          omega
      refine ⟨p, g, by rw [← hfe], hdp, hg, by omega, by omega, by omega, ?_⟩
      intro l' a b hiv ha hb hne
      have hlv : l' ≤ g.lcp := by
        rw [hglcp]
        by_cases h4 : a < f0.lb
        · have := hiv.le f0.lb h4 (by have := hiv0'.lt; omega)
          rw [if_neg (by omega)]
          exact le_trans this (le_max_left _ _)
        · by_cases h5 : f0.rb < b
          · have := hiv.le (f0.rb + 1) (by have := hiv0'.lt; omega) h5
            exact le_trans this (le_max_right _ _)
          · exfalso
            have ha' : a = f0.lb := by omega
            have hb' : b = f0.rb := by omega
            subst ha' hb'
            exact hne (by rw [hlcpf]; exact hiv.value hiv0')
      exact hiv.nested hivg (p := f0.lb) ⟨by omega, by have := hiv0'.lt; omega⟩ ⟨by omega, by have := hiv0'.lt; omega⟩ hlv
    · intro i hi
      have hempty : ∀ a, a ∉ lv := by
        intro a ha
        have := (hleaf'.mem a).mp ha
        exact this.2 root (by simp) ⟨Nat.zero_le _, by rw [hroot]; simp only; omega⟩
      obtain ⟨d, t, e1, e2, e3, e4⟩ := hleaf'.par i hi (hempty i)
      obtain ⟨f, hf, hs⟩ := hget' d t e2
      refine ⟨d, f, e1, hf, (hs.in_iff i).mpr e3, ?_⟩
      intro l a b hiv ha hb
      have hin := (hs.in_iff i).mpr e3
      have hivf := hsound f (List.mem_of_getElem? hf)
      by_cases hle : l ≤ f.lcp
      · exact hiv.nested hivf ⟨ha, hb⟩ hin hle
      · -- a tighter interval would have been closed before
        exfalso
        have hsub := hivf.nested hiv hin ⟨ha, hb⟩ (by omega)
        obtain ⟨g, hg, g1, g2, g3⟩ := hcomplete l a b hiv
        obtain ⟨d', hd'⟩ := List.mem_iff_getElem?.mp hg
        obtain ⟨g', hg', hs'⟩ := hget d' g hd'
        have hing : In i g' := (hs'.in_iff i).mp ⟨by omega, by omega⟩
        rcases Nat.lt_trichotomy d' d with h | h | h
        · exact e4 d' g' h hg' hing
        · subst h
          rw [hf] at hd'
          obtain rfl := Option.some.inj hd'
          omega
        · obtain ⟨q1, q2⟩ := List.getElem?_eq_some_iff.mp hf
          obtain ⟨q3, q4⟩ := List.getElem?_eq_some_iff.mp hd'
          have := List.pairwise_iff_getElem.mp hsorted d d' q1 q3 h
          rw [q2, q4] at this
          omega

end Verif.Nbest
