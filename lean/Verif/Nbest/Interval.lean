import Verif.Nbest.IvSpec

/-!
# The loop of `CreateLcpIntervalArray`
-/

namespace Verif.Nbest

variable {L : Nat → Nat} {n : Nat}

/-- An interval that has begun and not ended before `i`. -/
structure Open (L : Nat → Nat) (i : Nat) (e : Iv) : Prop where
  lt : e.lb < i
  left : e.lb = 0 ∨ L e.lb < e.lcp
  le : ∀ k, e.lb < k → k < i → e.lcp ≤ L k
  attained : e.lcp = 0 ∧ e.lb = 0 ∨ ∃ k, e.lb < k ∧ k < i ∧ L k = e.lcp

/-- Nothing from `k` to `i` is less. -/
def SufMin (L : Nat → Nat) (i k : Nat) : Prop := 0 < k ∧ k < i ∧ ∀ m, k ≤ m → m < i → L k ≤ L m

/-- The interval of value `l` from `lb` on is the next one around `f`. -/
structure ParOK (L : Nat → Nat) (f : Iv) (l lb : Nat) : Prop where
  value : l = max (if f.lb = 0 then 0 else L f.lb) (L (f.rb + 1))
  left : lb ≤ f.lb
  le : ∀ k, lb < k → k ≤ f.lb → l ≤ L k

/-- What holds inside and outside the inner loop. `ids` are the intervals in the order of pushing, `cl` the
numbers of the closed ones in the order of closing. -/
structure Core (L : Nat → Nat) (n i m : Nat) (stack : List Iv) (s : St) (ids : List (Nat × Nat)) (cl : List Nat) :
    Prop where
  sorted : stack.Pairwise (fun a b => b.lcp < a.lcp)
  opn : ∀ e ∈ stack, Open L i e
  root : stack.getLast? = some ⟨0, 0, n - 1, some 0⟩
  ids_len : ids.length = s.next
  next_le : s.next ≤ i
  ids_stack : ∀ e ∈ stack, ∃ c, e.parent = some c ∧ ids[c]? = some (e.lcp, e.lb)
  perm : (stack.map Iv.parent ++ cl.map some).Perm ((List.range s.next).map some)
  order_len : s.order.length = n
  cl_len : cl.length = s.out.length
  closed : ∀ (d c : Nat), cl[d]? = some c → s.order[c]? = some d ∧
    ∃ f, s.out[d]? = some f ∧ ids[c]? = some (f.lcp, f.lb)
  out_iv : ∀ f ∈ s.out, IsIv L n f.lcp f.lb f.rb ∧ f.rb + 1 < n
  out_sorted : s.out.Pairwise (fun f g => f.rb < g.rb ∨ f.rb = g.rb ∧ g.lcp < f.lcp)
  leaf : LeafInv n m s.leaves s.out s.leafParent
  par : ∀ (d : Nat) f, s.out[d]? = some f → s.last = none ∨ d + 1 < s.out.length →
    ∃ c l lb, f.parent = some c ∧ ids[c]? = some (l, lb) ∧ ParOK L f l lb

/-- Inside the inner loop: the intervals of value `B` and more that end at `i` have been closed. -/
structure Mid (L : Nat → Nat) (n i B lb : Nat) (stack : List Iv) (s : St) (cl : List Nat) : Prop where
  vB : L i < B
  top : ∀ e ∈ stack, e.lcp < B
  compl : ∀ k, SufMin L i k → L k < B → ∃ e ∈ stack, e.lcp = L k
  out_lt : ∀ f ∈ s.out, f.rb + 1 < i ∨ f.rb + 1 = i ∧ B ≤ f.lcp
  out_compl : ∀ l a b, IsIv L n l a b → b + 1 < i ∨ b + 1 = i ∧ B ≤ l →
    ∃ f ∈ s.out, f.lcp = l ∧ f.lb = a ∧ f.rb = b
  lb_lt : lb < i
  lb_left : lb = 0 ∨ ∃ e ∈ stack, e.lcp = L lb
  lb_le : ∀ k, lb < k → k < i → L i ≤ L k
  last : ∀ c, s.last = some c → (∀ e ∈ stack.head?, e.lcp < L i) ∧
    ∃ (d : Nat) (f : Iv), d + 1 = s.out.length ∧ s.out[d]? = some f ∧ cl[d]? = some c ∧ ParOK L f (L i) lb

/-- Before the round `i`. -/
structure Inv (L : Nat → Nat) (n i : Nat) (stack : List Iv) (s : St) : Prop where
  core : ∃ ids cl, Core L n i (i - 1) stack s ids cl
  last : s.last = none
  compl : ∀ k, SufMin L i k → ∃ e ∈ stack, e.lcp = L k
  out_lt : ∀ f ∈ s.out, f.rb + 1 < i
  out_compl : ∀ l a b, IsIv L n l a b → b + 1 < i → ∃ f ∈ s.out, f.lcp = l ∧ f.lb = a ∧ f.rb = b

/-- The value at the left end of an open interval is the value of the one below it on the stack. -/
theorem left_value {i B : Nat} {e p : Iv} {es : List Iv}
    (hs : (e :: p :: es).Pairwise (fun a b => b.lcp < a.lcp)) (ho : ∀ f ∈ e :: p :: es, Open L i f)
    (hB : e.lcp < B) (hc : ∀ k, SufMin L i k → L k < B → ∃ f ∈ e :: p :: es, f.lcp = L k) :
    (if e.lb = 0 then 0 else L e.lb) = p.lcp ∧ p.lb ≤ e.lb ∧
      (e.lb = 0 ∨ ∃ f ∈ p :: es, f.lcp = L e.lb) := by
  have he := ho e List.mem_cons_self
  have hp := ho p (by simp)
  have hpe : p.lcp < e.lcp := (List.pairwise_cons.mp hs).1 p List.mem_cons_self
  have hlb : p.lb ≤ e.lb := by
    by_contra hlt
    have h1 := he.le p.lb (by omega) hp.lt
    rcases hp.left with h2 | h2 <;> omega
  by_cases h0 : e.lb = 0
  · refine ⟨?_, hlb, .inl h0⟩
    rw [if_pos h0]
    rcases hp.attained with h1 | ⟨k, h1, h2, h3⟩
    · exact h1.1.symm
    · have := he.le k (by omega) h2
      omega
  · rw [if_neg h0]
    have hl : L e.lb < e.lcp := he.left.resolve_left h0
    have hsm : SufMin L i e.lb := ⟨by omega, he.lt, fun m h1 h2 => by
      rcases Nat.eq_or_lt_of_le h1 with rfl | h1
      · exact le_rfl
      · have := he.le m h1 h2; omega⟩
    obtain ⟨f, hf, hfl⟩ := hc e.lb hsm (by omega)
    have hf' : f ∈ p :: es := by
      rcases List.mem_cons.mp hf with rfl | hf
      · omega
      · exact hf
    refine ⟨?_, hlb, .inr ⟨f, hf', hfl⟩⟩
    have h1 : L e.lb ≤ p.lcp := by
      rw [← hfl]
      rcases List.mem_cons.mp hf' with rfl | h
      · exact le_rfl
      · exact le_of_lt ((List.pairwise_cons.mp (List.pairwise_cons.mp hs).2).1 f h)
    have h2 : p.lcp ≤ L e.lb := by
      apply hp.le _ _ he.lt
      by_contra hge
      have heq : p.lb = e.lb := by omega
      rcases hp.attained with h3 | ⟨k, h3, h4, h5⟩
      · omega
      · have := he.le k (by omega) h4
        omega
    omega

theorem Open.close {i : Nat} {e : Iv} (h : Open L i e) (hi : i < n) (hv : L i < e.lcp) :
    IsIv L n e.lcp e.lb (i - 1) ∧ i - 1 + 1 < n := by
  rcases h.attained with h1 | ⟨k, h1, h2, h3⟩
  · omega
  · refine ⟨⟨by omega, by omega, h.left, .inr ?_, ?_, k, h1, by omega, h3⟩, by omega⟩
    · rw [show i - 1 + 1 = i by omega]; exact hv
    · exact fun k h4 h5 => h.le k h4 (by omega)

/-- The inner loop. -/
theorem popLoop_inv {i : Nat} (hi0 : 0 < i) (hi : i < n) {ids : List (Nat × Nat)} (stack : List Iv) :
    ∀ (B lb : Nat) (s : St) (cl : List Nat), Core L n i i stack s ids cl → Mid L n i B lb stack s cl →
    ∃ stack' lb' s' cl' B', popLoop n i (L i) stack lb s = some (stack', lb', s') ∧
      Core L n i i stack' s' ids cl' ∧ Mid L n i B' lb' stack' s' cl' ∧ (∀ e ∈ stack'.head?, e.lcp ≤ L i) ∧
      s'.next = s.next := by
  induction stack with
  | nil =>
    intro B lb s cl hc hm
    have := hc.root
    simp at this
  | cons e es ih =>
    intro B lb s cl hc hm
    rw [popLoop]
    by_cases hv : L i < e.lcp
    · rw [if_pos hv]
      have hlast : s.last = none := by
        cases hl : s.last with
        | none => rfl
        | some c =>
          have := (hm.last c hl).1 e (by simp)
          omega
      obtain ⟨self, hself, hids⟩ := hc.ids_stack e List.mem_cons_self
      obtain ⟨p, es', rfl⟩ : ∃ p es', es = p :: es' := by
        cases es with
        | nil =>
          have := hc.root
          simp only [List.getLast?_singleton, Option.some.injEq] at this
          rw [this] at hv
          simp at hv
        | cons p es' => exact ⟨p, es', rfl⟩
      have he := hc.opn e List.mem_cons_self
      have hp := hc.opn p (by simp)
      obtain ⟨hval, hplb, hleft⟩ := left_value hc.sorted hc.opn (hm.top e List.mem_cons_self) hm.compl
      have hpe : p.lcp < e.lcp := (List.pairwise_cons.mp hc.sorted).1 p List.mem_cons_self
      have hclose := he.close hi hv
      set par := (if L i ≤ p.lcp then p.parent else e.parent) with hpar
      set f : Iv := { e with rb := i - 1, parent := par } with hf
      obtain ⟨lv, lp, hpop, hleaf⟩ := hc.leaf.pop f (by rw [hf]; simp only; omega)
      have hpl := hc.perm.length_eq
      simp only [List.length_append, List.length_map, List.length_cons, List.length_range] at hpl
      have hnext := hc.next_le
      have hol := hc.order_len
      have hcl := hc.cl_len
      have hselflt : self < s.next := by
        rw [← hc.ids_len]; exact (List.getElem?_eq_some_iff.mp hids).1
      have hnd : (((e :: p :: es').map Iv.parent) ++ cl.map some).Nodup := by
        rw [hc.perm.nodup_iff]
        exact List.nodup_range.map (fun a b h => Option.some.inj h)
      have hnotin : self ∉ cl := by
        intro hin
        have h1 := (List.nodup_append.mp hnd).2.2 (some self) (by rw [← hself]; simp) (some self)
          (List.mem_map_of_mem hin)
        exact h1 rfl
      simp only [Option.bind_eq_bind, hself, Option.bind_some]
      have hpop' : popLeaves e.lb s.out.length s.leaves s.leafParent = some (lv, lp) := hpop
      rw [hpop', Option.bind_some, if_pos (by omega), write_some _ _ _ (by omega), Option.bind_some,
        List.head?_cons, Option.bind_some]
      rw [← hself, ← hpar, ← hf]
      set s' : St := { s with
        leaves := lv, leafParent := lp, order := s.order.set self s.out.length, out := s.out ++ [f],
        last := if L i ≤ p.lcp then none else some self } with hs'
      have hparok : ParOK L f (max p.lcp (L i)) (if L i ≤ p.lcp then p.lb else e.lb) := by
        refine ⟨?_, ?_, ?_⟩
        · rw [hf]; simp only; rw [hval, show i - 1 + 1 = i by omega]
        · rw [hf]; simp only; split <;> omega
        · rw [hf]; simp only
          intro k h1 h2
          split at h1
          · have := hp.le k h1 (by have := he.lt; omega)
            omega
          · omega
      have hcore : Core L n i i (p :: es') s' ids (cl ++ [self]) := by
        refine ⟨(List.pairwise_cons.mp hc.sorted).2, fun g hg => hc.opn g (List.mem_cons_of_mem _ hg), ?_,
          hc.ids_len, hc.next_le, fun g hg => hc.ids_stack g (List.mem_cons_of_mem _ hg), ?_, ?_, ?_, ?_, ?_, ?_,
          hleaf, ?_⟩
        · rw [← hc.root]; simp
        · refine List.Perm.trans ?_ hc.perm
          rw [List.map_append, List.map_cons (f := Iv.parent) (a := e), hself]
          simp only [List.map_cons, List.map_nil]
          rw [← List.append_assoc]
          exact List.perm_append_singleton _ _
        · rw [hs']; simpa using hc.order_len
        · rw [hs']; simp [hcl]
        · intro d c hd
          rw [hs']
          simp only
          by_cases hdl : d < cl.length
          · rw [List.getElem?_append_left hdl] at hd
            obtain ⟨g1, g, g2, g3⟩ := hc.closed d c hd
            have hne : self ≠ c := by rintro rfl; exact hnotin (List.mem_of_getElem? hd)
            rw [List.getElem?_set_ne hne]
            refine ⟨g1, g, ?_, g3⟩
            rw [List.getElem?_append_left (by omega)]; exact g2
          · have hlt := (List.getElem?_eq_some_iff.mp hd).1
            rw [List.length_append, List.length_singleton] at hlt
            obtain rfl : d = cl.length := by omega
            have : c = self := by simpa using hd.symm
            subst this
            rw [List.getElem?_set_self (by omega)]
            refine ⟨by rw [hcl], f, by rw [hcl]; simp, hids⟩
        · rw [hs']; simp only
          intro g hg
          rcases List.mem_append.mp hg with hg | hg
          · exact hc.out_iv g hg
          · rw [List.mem_singleton] at hg; subst hg; exact hclose
        · rw [hs']; simp only
          rw [List.pairwise_append]
          refine ⟨hc.out_sorted, List.pairwise_singleton _ _, ?_⟩
          intro g hg h hh
          rw [List.mem_singleton] at hh; subst hh
          have := hm.top e List.mem_cons_self
          rcases hm.out_lt g hg with h1 | h1
          · left; rw [hf]; simp only; omega
          · right; rw [hf]; simp only; omega
        · intro d g hd hor
          rw [hs'] at hd hor
          simp only [List.length_append, List.length_singleton] at hd hor
          by_cases hdl : d < s.out.length
          · rw [List.getElem?_append_left hdl] at hd
            exact hc.par d g hd (.inl hlast)
          · have hlt := (List.getElem?_eq_some_iff.mp hd).1
            rw [List.length_append, List.length_singleton] at hlt
            obtain rfl : d = s.out.length := by omega
            have hg : g = f := by simpa using hd.symm
            subst hg
            have hle : L i ≤ p.lcp := by
              rcases hor with h1 | h1
              · by_contra hgt; rw [if_neg hgt] at h1; simp at h1
              · omega
            obtain ⟨c, hc1, hc2⟩ := hc.ids_stack p (by simp)
            rw [if_pos hle, max_eq_left hle] at hparok
            refine ⟨c, p.lcp, p.lb, ?_, hc2, hparok⟩
            rw [hf]; simp only; rw [hpar, if_pos hle]; exact hc1
      have hmid : Mid L n i e.lcp e.lb (p :: es') s' (cl ++ [self]) := by
        refine ⟨hv, ?_, ?_, ?_, ?_, he.lt, hleft, ?_, ?_⟩
        · exact fun g hg => (List.pairwise_cons.mp hc.sorted).1 g hg
        · intro k hk hlt
          obtain ⟨g, hg, hgl⟩ := hm.compl k hk (by have := hm.top e List.mem_cons_self; omega)
          rcases List.mem_cons.mp hg with rfl | hg
          · omega
          · exact ⟨g, hg, hgl⟩
        · rw [hs']; simp only
          intro g hg
          have := hm.top e List.mem_cons_self
          rcases List.mem_append.mp hg with hg | hg
          · rcases hm.out_lt g hg with h1 | h1
            · exact .inl h1
            · exact .inr ⟨h1.1, by omega⟩
          · rw [List.mem_singleton] at hg; subst hg
            right; rw [hf]; simp only; omega
        · intro l a b hiv hor
          rw [hs']; simp only
          have hold : (b + 1 < i ∨ b + 1 = i ∧ B ≤ l) → ∃ f' ∈ s.out ++ [f], f'.lcp = l ∧ f'.lb = a ∧ f'.rb = b := by
            intro h
            obtain ⟨g, hg, hgl⟩ := hm.out_compl l a b hiv h
            exact ⟨g, List.mem_append_left _ hg, hgl⟩
          rcases hor with h1 | ⟨h1, h2⟩
          · exact hold (.inl h1)
          · by_cases hlB : B ≤ l
            · exact hold (.inr ⟨h1, hlB⟩)
            · clear hold
              obtain ⟨k, k1, k2, k3⟩ := hiv.attained
              obtain ⟨g, hg, hgl⟩ := hm.compl k ⟨by omega, by omega, fun m h3 h4 => by
                rw [k3]; exact hiv.le m (by omega) (by omega)⟩ (by omega)
              have hge : g = e := by
                rcases List.mem_cons.mp hg with h | h
                · exact h
                · have := (List.pairwise_cons.mp hc.sorted).1 g h; omega
              subst hge
              have hl : l = g.lcp := by omega
              subst hl
              have hb : b = i - 1 := by omega
              subst hb
              have hab := hiv.nested hclose.1 (p := i - 1) (by have := hiv.lt; omega)
                (by have := hclose.1.lt; omega) le_rfl
              have hba := hclose.1.nested hiv (p := i - 1) (by have := hclose.1.lt; omega)
                (by have := hiv.lt; omega) le_rfl
              exact ⟨f, by simp, by rw [hf], by rw [hf]; simp only; omega, by rw [hf]⟩
        · intro k h1 h2
          have := he.le k h1 h2; omega
        · intro c hcl'
          rw [hs'] at hcl'
          simp only at hcl'
          have hgt : ¬ L i ≤ p.lcp := by
            intro hle; rw [if_pos hle] at hcl'; simp at hcl'
          rw [if_neg hgt] at hcl'
          obtain rfl := Option.some.inj hcl'
          refine ⟨by intro g hg; simp at hg; subst hg; omega, s.out.length, f, by rw [hs']; simp, by rw [hs']; simp,
            by rw [← hcl]; simp, ?_⟩
          rw [if_neg hgt, max_eq_right (by omega)] at hparok
          exact hparok
      obtain ⟨st, lb', sf, cl', B', r1, r2, r3, r4, r5⟩ := ih e.lcp e.lb s' (cl ++ [self]) hcore hmid
      exact ⟨st, lb', sf, cl', B', by rw [hself]; exact r1, r2, r3, r4, r5⟩
    · rw [if_neg hv]
      exact ⟨e :: es, lb, s, cl, B, rfl, hc, hm, by intro g hg; simp at hg; subst hg; omega, rfl⟩

theorem forall₂_same_set (out : List Iv) (d : Nat) (f : Iv) (c : Option Nat) (h : out[d]? = some f) :
    List.Forall₂ Same (out.set d { f with parent := c }) out := by
  induction out generalizing d with
  | nil => simp at h
  | cons g out ih =>
    have hrefl : ∀ l : List Iv, List.Forall₂ Same l l := fun l => by
      induction l with
      | nil => exact .nil
      | cons a l ih => exact .cons ⟨rfl, rfl, rfl⟩ ih
    cases d with
    | zero =>
      simp only [List.getElem?_cons_zero, Option.some.injEq] at h
      subst h
      exact .cons ⟨rfl, rfl, rfl⟩ (hrefl _)
    | succ d => exact .cons ⟨rfl, rfl, rfl⟩ (ih d (by simpa using h))

theorem Open.extend {i : Nat} {e : Iv} (h : Open L i e) (hv : e.lcp ≤ L i) : Open L (i + 1) e := by
  have := h.lt
  refine ⟨by omega, h.left, ?_, ?_⟩
  · intro k h1 h2
    rcases Nat.lt_or_ge k i with h3 | h3
    · exact h.le k h1 h3
    · obtain rfl : k = i := by omega
      exact hv
  · rcases h.attained with h1 | ⟨k, h1, h2, h3⟩
    · exact .inl h1
    · exact .inr ⟨k, h1, by omega, h3⟩

theorem head_le {stack : List Iv} {v : Nat} (hs : stack.Pairwise (fun a b => b.lcp < a.lcp))
    (hh : ∀ e ∈ stack.head?, e.lcp ≤ v) : ∀ e ∈ stack, e.lcp ≤ v := by
  intro e he
  cases stack with
  | nil => simp at he
  | cons a st =>
    have ha := hh a (by simp)
    rcases List.mem_cons.mp he with rfl | he
    · exact ha
    · have := (List.pairwise_cons.mp hs).1 e he; omega

/-- One round. -/
theorem ivStep_inv {lcp : List Nat} {i : Nat} (hi0 : 0 < i) (hi : i < n) (hg : lcp[i]? = some (L i))
    {stack : List Iv} {s : St} (h : Inv L n i stack s) :
    ∃ stack' s', ivStep lcp n i stack s = some (stack', s') ∧ Inv L n (i + 1) stack' s' := by
  obtain ⟨⟨ids, cl, hc⟩, hlast, hcompl, hout_lt, hout_compl⟩ := h
  obtain ⟨a, st, rfl⟩ : ∃ a st, stack = a :: st := by
    cases stack with
    | nil => have := hc.root; simp at this
    | cons a st => exact ⟨a, st, rfl⟩
  have htop := head_le hc.sorted (v := a.lcp) (by intro e he; simp at he; subst he; exact le_rfl)
  have hleaf' : LeafInv n i ((i - 1) :: s.leaves) s.out s.leafParent := by
    have := hc.leaf.push (by omega) (fun t ht => by have := hout_lt t ht; omega)
    rw [show i - 1 + 1 = i by omega] at this; exact this
  have hcore : Core L n i i (a :: st) { s with leaves := (i - 1) :: s.leaves } ids cl :=
    ⟨hc.sorted, hc.opn, hc.root, hc.ids_len, hc.next_le, hc.ids_stack, hc.perm, hc.order_len, hc.cl_len, hc.closed,
      hc.out_iv, hc.out_sorted, hleaf', hc.par⟩
  have hmid : Mid L n i (max a.lcp (L i) + 1) (i - 1) (a :: st) { s with leaves := (i - 1) :: s.leaves } cl := by
    refine ⟨by omega, fun e he => by have := htop e he; omega, fun k hk _ => hcompl k hk,
      fun f hf => .inl (hout_lt f hf), ?_, by omega, ?_, fun k h1 h2 => by omega, ?_⟩
    · intro l x b hiv hor
      rcases hor with h1 | ⟨h1, h2⟩
      · exact hout_compl l x b hiv h1
      · exfalso
        obtain ⟨k, k1, k2, k3⟩ := hiv.attained
        obtain ⟨g, hg, hgl⟩ := hcompl k ⟨by omega, by omega, fun m h3 h4 => by
          rw [k3]; exact hiv.le m (by omega) (by omega)⟩
        have := htop g hg
        omega
    · by_cases h0 : i - 1 = 0
      · exact .inl h0
      · exact .inr (hcompl (i - 1) ⟨by omega, by omega, fun m h3 h4 => by
          obtain rfl : m = i - 1 := by omega
          exact le_rfl⟩)
    · intro c hcl; simp only at hcl; rw [hlast] at hcl; simp at hcl
  obtain ⟨stk, lb, s', cl', B', r1, r2, r3, r4, r5⟩ := popLoop_inv hi0 hi _ _ _ _ _ hcore hmid
  obtain ⟨p, st', rfl⟩ : ∃ p st', stk = p :: st' := by
    cases stk with
    | nil => have := r2.root; simp at this
    | cons p st' => exact ⟨p, st', rfl⟩
  have hle := head_le r2.sorted r4
  have hpv := hle p List.mem_cons_self
  have hcompl' : ∀ k, SufMin L (i + 1) k → k < i → ∃ e ∈ p :: st', e.lcp = L k := by
    intro k hk hki
    have hki' := hk.2.2 i (by omega) (by omega)
    exact r3.compl k ⟨hk.1, hki, fun m h1 h2 => hk.2.2 m h1 (by omega)⟩ (by have := r3.vB; omega)
  have hout_lt' : ∀ f ∈ s'.out, f.rb + 1 < i + 1 := by
    intro f hf
    rcases r3.out_lt f hf with h1 | h1 <;> omega
  have hout_compl' : ∀ l a b, IsIv L n l a b → b + 1 < i + 1 → ∃ f ∈ s'.out, f.lcp = l ∧ f.lb = a ∧ f.rb = b := by
    intro l x b hiv hb
    by_cases hlt : b + 1 < i
    · exact r3.out_compl l x b hiv (.inl hlt)
    · have hb' : b + 1 = i := by omega
      by_cases hB : B' ≤ l
      · exact r3.out_compl l x b hiv (.inr ⟨hb', hB⟩)
      · exfalso
        obtain ⟨k, k1, k2, k3⟩ := hiv.attained
        obtain ⟨g, hg, hgl⟩ := r3.compl k ⟨by omega, by omega, fun m h3 h4 => by
          rw [k3]; exact hiv.le m (by omega) (by omega)⟩ (by omega)
        have h1 := hle g hg
        have h2 : L i < l := by
          have h3 := hiv.right
          rw [hb'] at h3
          omega
        omega
  rw [ivStep]
  simp only [hg, Option.bind_eq_bind, Option.bind_some, r1, List.head?_cons]
  by_cases hlt : p.lcp < L i
  · rw [if_pos hlt]
    -- the interval is pushed
    have hset : ∃ out', setLast s' = some out' ∧ List.Forall₂ Same out' s'.out ∧
        ∀ (d : Nat) f, out'[d]? = some f → ∃ c l lb0, f.parent = some c ∧
          (ids ++ [(L i, lb)])[c]? = some (l, lb0) ∧ ParOK L f l lb0 := by
      have hold : ∀ (d : Nat) f, s'.out[d]? = some f → s'.last = none ∨ d + 1 < s'.out.length →
          ∃ c l lb0, f.parent = some c ∧ (ids ++ [(L i, lb)])[c]? = some (l, lb0) ∧ ParOK L f l lb0 := by
        intro d f hd hor
        obtain ⟨c, l, lb0, g1, g2, g3⟩ := r2.par d f hd hor
        refine ⟨c, l, lb0, g1, ?_, g3⟩
        rw [List.getElem?_append_left (List.getElem?_eq_some_iff.mp g2).1]; exact g2
      rw [setLast]
      cases hl : s'.last with
      | none =>
        refine ⟨s'.out, rfl, ?_, fun d f hd => hold d f hd (.inl hl)⟩
        generalize s'.out = l
        induction l with
        | nil => exact .nil
        | cons a l ih => exact .cons ⟨rfl, rfl, rfl⟩ ih
      | some c =>
        obtain ⟨-, d, f, g1, g2, g3, g4⟩ := r3.last c hl
        have hord := (r2.closed d c g3).1
        simp only [hord, Option.bind_eq_bind, Option.bind_some, g2]
        refine ⟨_, rfl, forall₂_same_set _ _ _ _ g2, ?_⟩
        intro d' f' hd'
        by_cases hdd : d = d'
        · subst hdd
          rw [List.getElem?_set_self (by omega)] at hd'
          obtain rfl := Option.some.inj hd'
          refine ⟨s'.next, L i, lb, rfl, by rw [← r2.ids_len]; simp, g4.value, g4.left, g4.le⟩
        · rw [List.getElem?_set_ne hdd] at hd'
          have := (List.getElem?_eq_some_iff.mp hd').1
          exact hold d' f' hd' (.inr (by omega))
    obtain ⟨out', e1, e2, e3⟩ := hset
    rw [e1, Option.bind_some]
    have hmem : ∀ f ∈ out', ∃ g ∈ s'.out, Same f g := by
      intro f hf
      obtain ⟨d, hd⟩ := List.mem_iff_getElem.mp hf
      obtain ⟨hd, rfl⟩ := hd
      have hd2 : d < s'.out.length := by rw [← e2.length_eq]; exact hd
      exact ⟨s'.out[d], List.getElem_mem _, List.Forall₂.get e2 hd hd2⟩
    have hmem' : ∀ g ∈ s'.out, ∃ f ∈ out', Same f g := by
      intro f hf
      obtain ⟨d, hd⟩ := List.mem_iff_getElem.mp hf
      obtain ⟨hd, rfl⟩ := hd
      have hd2 : d < out'.length := by rw [e2.length_eq]; exact hd
      exact ⟨out'[d], List.getElem_mem _, List.Forall₂.get e2 hd2 hd⟩
    refine ⟨_, _, rfl, ⟨ids ++ [(L i, lb)], cl', ?_⟩, rfl, ?_, ?_, ?_⟩
    · have hpw := r2.sorted
      refine ⟨?_, ?_, ?_, ?_, ?_, ?_, ?_, r2.order_len, ?_, ?_, ?_, ?_, ?_, ?_⟩
      · rw [List.pairwise_cons]
        refine ⟨fun g hg => ?_, hpw⟩
        rcases List.mem_cons.mp hg with rfl | hg
        · exact hlt
        · have := (List.pairwise_cons.mp hpw).1 g hg
          simp only; omega
      · intro g hg
        rcases List.mem_cons.mp hg with rfl | hg
        · have := r3.lb_lt
          refine ⟨by simp only; omega, ?_, ?_, ?_⟩
          · rcases r3.lb_left with h0 | ⟨g, hg, hgl⟩
            · exact .inl h0
            · right
              simp only
              rw [← hgl]
              rcases List.mem_cons.mp hg with rfl | hg
              · exact hlt
              · have := (List.pairwise_cons.mp hpw).1 g hg; omega
          · intro k h1 h2
            simp only at h1 ⊢
            rcases Nat.lt_or_ge k i with h3 | h3
            · exact r3.lb_le k h1 h3
            · obtain rfl : k = i := by omega
              exact le_rfl
          · exact .inr ⟨i, r3.lb_lt, by omega, rfl⟩
        · exact (r2.opn g hg).extend (hle g hg)
      · rw [← r2.root]; simp
      · simp [r2.ids_len]
      · have := r2.next_le; simp only; omega
      · intro g hg
        rcases List.mem_cons.mp hg with rfl | hg
        · exact ⟨s'.next, rfl, by rw [← r2.ids_len]; simp⟩
        · obtain ⟨c, g1, g2⟩ := r2.ids_stack g hg
          refine ⟨c, g1, ?_⟩
          rw [List.getElem?_append_left (List.getElem?_eq_some_iff.mp g2).1]; exact g2
      · simp only [List.map_cons, List.cons_append, List.range_succ, List.map_append, List.map_nil]
        refine List.Perm.trans (List.Perm.cons _ ?_) (List.perm_append_singleton _ _).symm
        have := r2.perm
        simpa using this
      · simp only; rw [r2.cl_len, e2.length_eq]
      · intro d c hd
        obtain ⟨g1, g, g2, g3⟩ := r2.closed d c hd
        refine ⟨g1, ?_⟩
        obtain ⟨hd', rfl⟩ := List.getElem?_eq_some_iff.mp g2
        have hd2 : d < out'.length := by rw [e2.length_eq]; exact hd'
        have hsame := List.Forall₂.get e2 hd2 hd'
        refine ⟨out'[d], List.getElem?_eq_getElem _, ?_⟩
        simp only [List.get_eq_getElem] at hsame
        rw [hsame.1, hsame.2.1, List.getElem?_append_left (List.getElem?_eq_some_iff.mp g3).1]; exact g3
      · intro f hf
        obtain ⟨g, hg, hs⟩ := hmem f hf
        rw [hs.1, hs.2.1, hs.2.2]; exact r2.out_iv g hg
      · rw [List.pairwise_iff_getElem]
        intro x y hx hy hxy
        have hl := e2.length_eq
        have := List.pairwise_iff_getElem.mp r2.out_sorted x y (by simp only at hx; omega) (by simp only at hy; omega) hxy
        have h1 := List.Forall₂.get e2 hx (by simp only at hx; omega)
        have h2 := List.Forall₂.get e2 hy (by simp only at hy; omega)
        simp only [List.get_eq_getElem] at h1 h2
        simp only
        rw [h1.1, h1.2.2, h2.1, h2.2.2]; exact this
      · rw [show i + 1 - 1 = i by omega]
        exact r2.leaf.same e2
      · intro d f hd _
        exact e3 d f hd
    · intro k hk
      by_cases hki : k < i
      · obtain ⟨g, hg, hgl⟩ := hcompl' k hk hki
        exact ⟨g, List.mem_cons_of_mem _ hg, hgl⟩
      · have hk1 := hk.2.1
        obtain rfl : k = i := by omega
        exact ⟨_, List.mem_cons_self, rfl⟩
    · intro f hf
      obtain ⟨g, hg, hs⟩ := hmem f hf
      rw [hs.2.2]; exact hout_lt' g hg
    · intro l x b hiv hb
      obtain ⟨g, hg, g1, g2, g3⟩ := hout_compl' l x b hiv hb
      obtain ⟨f, hf, hs⟩ := hmem' g hg
      exact ⟨f, hf, by rw [hs.1, g1], by rw [hs.2.1, g2], by rw [hs.2.2, g3]⟩
  · rw [if_neg hlt]
    have hpeq : p.lcp = L i := by omega
    have hl' : s'.last = none := by
      cases hl : s'.last with
      | none => rfl
      | some c =>
        have := (r3.last c hl).1 p (by simp)
        omega
    refine ⟨_, _, rfl, ⟨ids, cl', r2.sorted, fun g hg => (r2.opn g hg).extend (hle g hg), r2.root, r2.ids_len,
      by have := r2.next_le; omega, r2.ids_stack, r2.perm, r2.order_len, r2.cl_len, r2.closed, r2.out_iv, r2.out_sorted,
      by rw [show i + 1 - 1 = i by omega]; exact r2.leaf, r2.par⟩, hl', ?_, hout_lt', hout_compl'⟩
    intro k hk
    by_cases hki : k < i
    · exact hcompl' k hk hki
    · have hk1 := hk.2.1
      obtain rfl : k = i := by omega
      exact ⟨p, List.mem_cons_self, hpeq⟩

theorem ivLoop_inv {lcp : List Nat} (hg : ∀ i, i < n → lcp[i]? = some (L i)) (m : Nat) :
    ∀ (i : Nat) (stack : List Iv) (s : St), 0 < i → i + m = n → Inv L n i stack s →
      ∃ stack' s', ivLoop lcp n m i stack s = some (stack', s') ∧ Inv L n n stack' s' := by
  induction m with
  | zero =>
    intro i stack s hi him h
    obtain rfl : i = n := by omega
    exact ⟨stack, s, rfl, h⟩
  | succ m ih =>
    intro i stack s hi him h
    obtain ⟨st, s', h1, h2⟩ := ivStep_inv hi (by omega) (hg i (by omega)) h
    obtain ⟨st', s'', h3, h4⟩ := ih (i + 1) st s' (by omega) (by omega) h2
    exact ⟨st', s'', by rw [ivLoop, h1]; exact h3, h4⟩

theorem inv_start : Inv L n 1 [⟨0, 0, n - 1, some 0⟩]
    ⟨[], [], List.replicate n 0, List.replicate n 0, 1, none⟩ := by
  refine ⟨⟨[(0, 0)], [], by simp, ?_, rfl, rfl, le_rfl, ?_, by simp [List.range_succ], by simp, rfl, by simp, by simp, .nil,
    ⟨by simp, by simp, .nil, by simp, by simp⟩, by simp⟩, rfl, ?_, by simp, ?_⟩
  · intro e he
    rw [List.mem_singleton] at he; subst he
    exact ⟨by simp, .inl rfl, fun k h1 h2 => by simp only at h1; omega, .inl ⟨rfl, rfl⟩⟩
  · intro e he
    rw [List.mem_singleton] at he; subst he
    exact ⟨0, rfl, rfl⟩
  · rintro k ⟨h1, h2, -⟩; omega
  · intro l a b hiv hb
    have := hiv.lt; omega

end Verif.Nbest
