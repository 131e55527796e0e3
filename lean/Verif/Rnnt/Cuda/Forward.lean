import Verif.Rnnt.Cuda.Model
import Verif.Rnnt.MutualInfoLemmas

/-! Correctness of the forward kernel: blocks, inner iterations, launches. -/

namespace Verif.Rnnt.Cuda
open Verif.Loop Verif.Rnnt

set_option linter.unusedSectionVars false
variable {W : Type} [CommSemiring W]

theorem alpha_rec (md : Bool) (px py : Nat → Nat → W) {sb tb s t : Nat} (hs : sb ≤ s) (ht : tb ≤ t)
    (h : s ≠ sb ∨ t ≠ tb) :
    alpha md px py sb tb s t =
      (if sb < s ∧ (if md then tb + 1 ≤ t else tb ≤ t) then
        alpha md px py sb tb (s - 1) (if md then t - 1 else t) *
          px (s - 1) (if md then t - 1 else t) else 0) +
      (if tb < t then alpha md px py sb tb s (t - 1) * py s (t - 1) else 0) := by
  by_cases h1 : sb < s
  · by_cases h2 : tb < t
    · have hc : sb < s ∧ (if md then tb + 1 ≤ t else tb ≤ t) := by
        refine ⟨h1, ?_⟩; split <;> omega
      rw [alpha_inner md px py sb tb h1 h2, if_pos hc, if_pos h2]
    · have : t = tb := by omega
      subst this
      rw [alpha_col md px py sb t h1]
      cases md <;> simp [h1]
  · have : s = sb := by omega
    subst this
    have h2 : tb < t := by omega
    rw [alpha_row md px py s tb h2]
    simp [h2]

/-- The element of the table of sums over alignments that belongs to `p_buf[a][c]`. -/
abbrev ctx (x : Input W) (b sbb tbb a c : Nat) : W :=
  context (alpha x.md (x.px b) (x.py b) (x.bd b).sb (x.bd b).tb) (x.bd b) sbb tbb a c

theorem ctx_inner (x : Input W) (b : Nat) {sbb tbb a c : Nat} (h1 : (x.bd b).sb ≤ sbb)
    (h2 : (x.bd b).tb ≤ tbb) (h3 : a + sbb ≤ (x.bd b).se) (h4 : c + tbb ≤ (x.bd b).te) :
    ctx x b sbb tbb (a + 1) (c + 1) =
      alpha x.md (x.px b) (x.py b) (x.bd b).sb (x.bd b).tb (a + sbb) (c + tbb) := by
  simp only [ctx, context]
  rw [if_pos (by omega)]
  congr 1 <;> omega

theorem cellForward_eq (x : Input W) (b : Nat) {sbb tbb s t : Nat} (buf : Nat → Nat → W)
    (h1 : (x.bd b).sb ≤ sbb) (h2 : (x.bd b).tb ≤ tbb)
    (h3 : s + sbb ≤ (x.bd b).se) (h4 : t + tbb ≤ (x.bd b).te)
    (hne : s + sbb ≠ (x.bd b).sb ∨ t + tbb ≠ (x.bd b).tb)
    (hb1 : buf s (if x.md then t else t + 1) =
      ctx x b sbb tbb s (if x.md then t else t + 1))
    (hb2 : buf (s + 1) t = ctx x b sbb tbb (s + 1) t) :
    cellForward x.md (x.px b) (x.py b) (x.bd b) sbb tbb s t buf =
      ctx x b sbb tbb (s + 1) (t + 1) := by
  rw [ctx_inner x b h1 h2 h3 h4, alpha_rec x.md _ _ (by omega) (by omega) hne]
  simp only [cellForward, hb1, hb2]
  congr 1
  · by_cases h5 : (x.bd b).sb < s + sbb ∧
      (if x.md then (x.bd b).tb + 1 ≤ t + tbb else (x.bd b).tb ≤ t + tbb)
    · have e1 : pxBuf x.md (x.px b) (x.bd b) sbb tbb s t =
          x.px b (s + sbb - 1) (if x.md then t + tbb - 1 else t + tbb) :=
        if_pos ⟨h5.1, h3, h5.2, h4⟩
      rw [if_pos h5, e1]
      simp only [ctx, context]
      cases hm : x.md with
      | true =>
        simp only [hm, if_true] at h5 ⊢
        rw [if_pos (by omega)]
      | false =>
        simp only [hm, Bool.false_eq_true, if_false] at h5 ⊢
        rw [if_pos (by omega), show t + 1 + tbb - 1 = t + tbb by omega]
    · have e1 : pxBuf x.md (x.px b) (x.bd b) sbb tbb s t = 0 :=
        if_neg (fun h => h5 ⟨h.1, h.2.2.1⟩)
      rw [if_neg h5, e1, mul_zero]
  · by_cases h5 : (x.bd b).tb < t + tbb
    · have e1 : pyBuf (x.py b) (x.bd b) sbb tbb s t = x.py b (s + sbb) (t + tbb - 1) :=
        if_pos ⟨h5, h4, h3⟩
      rw [if_pos h5, e1]
      simp only [ctx, context]
      rw [if_pos (by omega), show s + 1 + sbb - 1 = s + sbb by omega]
    · have e1 : pyBuf (x.py b) (x.bd b) sbb tbb s t = 0 := if_neg (fun h => h5 h.1)
      rw [if_neg h5, e1, mul_zero]

/-- `p_buf` before inner iteration `i`. -/
def BufInv (x : Input W) (b sbb tbb bS bT i : Nat) (buf : Nat → Nat → W) : Prop :=
  ∀ a c, a ≤ bS → c ≤ bT → (a = 0 ∨ c = 0 ∨ a + c < i + 2) → buf a c = ctx x b sbb tbb a c

theorem threads_forward (x : Input W) (b : Nat) {sbb tbb bS bT i : Nat}
    (h1 : (x.bd b).sb ≤ sbb) (h2 : (x.bd b).tb ≤ tbb)
    (h3 : bS + sbb ≤ (x.bd b).se + 1) (h4 : bT + tbb ≤ (x.bd b).te + 1) (hi : 1 ≤ i)
    (l : List Nat) (buf : Nat → Nat → W) (h : BufInv x b sbb tbb bS bT i buf) :
    let r := l.foldl (fun buf s =>
      threadForward x.md (x.px b) (x.py b) (x.bd b) sbb tbb bS bT i s buf) buf
    BufInv x b sbb tbb bS bT i r ∧
      ∀ s, s < bS → s ≤ i → i - s < bT →
        (s ∈ l ∨ buf (s + 1) (i - s + 1) = ctx x b sbb tbb (s + 1) (i - s + 1)) →
        r (s + 1) (i - s + 1) = ctx x b sbb tbb (s + 1) (i - s + 1) := by
  induction l generalizing buf with
  | nil =>
    refine ⟨h, ?_⟩
    intro s _ _ _ hs
    simpa using hs
  | cons s0 l ih =>
    simp only [List.foldl_cons]
    by_cases hc : s0 < bS ∧ s0 ≤ i ∧ i - s0 < bT
    · have hv : cellForward x.md (x.px b) (x.py b) (x.bd b) sbb tbb s0 (i - s0) buf =
          ctx x b sbb tbb (s0 + 1) (i - s0 + 1) := by
        apply cellForward_eq x b buf h1 h2 (by omega) (by omega) (by omega)
        · apply h
          · omega
          · split <;> omega
          · split <;> omega
        · apply h <;> omega
      have hb : threadForward x.md (x.px b) (x.py b) (x.bd b) sbb tbb bS bT i s0 buf =
          upd buf (s0 + 1) (i - s0 + 1) (ctx x b sbb tbb (s0 + 1) (i - s0 + 1)) := by
        simp only [threadForward]; rw [if_pos hc, hv]
      rw [hb]
      have hinv : BufInv x b sbb tbb bS bT i
          (upd buf (s0 + 1) (i - s0 + 1) (ctx x b sbb tbb (s0 + 1) (i - s0 + 1))) := by
        intro a c ha hc' hac
        rw [upd_other _ _ (by omega)]
        exact h a c ha hc' hac
      obtain ⟨g1, g2⟩ := ih _ hinv
      refine ⟨g1, ?_⟩
      intro s hs1 hs2 hs3 hs
      apply g2 s hs1 hs2 hs3
      by_cases e : s = s0
      · subst e; right; rw [upd_same]
      · rcases hs with hs | hs
        · left
          rcases List.mem_cons.1 hs with hs | hs
          · exact absurd hs e
          · exact hs
        · right
          rw [upd_other _ _ (by omega)]; exact hs
    · have hb : threadForward x.md (x.px b) (x.py b) (x.bd b) sbb tbb bS bT i s0 buf = buf := by
        simp only [threadForward]; rw [if_neg hc]
      rw [hb]
      obtain ⟨g1, g2⟩ := ih _ h
      refine ⟨g1, ?_⟩
      intro s hs1 hs2 hs3 hs
      apply g2 s hs1 hs2 hs3
      rcases hs with hs | hs
      · rcases List.mem_cons.1 hs with hs | hs
        · subst hs; exact absurd ⟨hs1, hs2, hs3⟩ hc
        · exact Or.inl hs
      · exact Or.inr hs

theorem innerForward_eq (x : Input W) (b : Nat) {sbb tbb bS bT n : Nat}
    (h1 : (x.bd b).sb ≤ sbb) (h2 : (x.bd b).tb ≤ tbb)
    (h3 : bS + sbb ≤ (x.bd b).se + 1) (h4 : bT + tbb ≤ (x.bd b).te + 1)
    (hS : 0 < bS) (hT : 0 < bT) (hn : bS ≤ n)
    (ord : Nat → List Nat) (hord : ∀ i, (ord i).Perm (List.range n))
    (origin : Bool) (ho : origin = true ↔ sbb = (x.bd b).sb ∧ tbb = (x.bd b).tb)
    (buf : Nat → Nat → W)
    (hbuf : ∀ a c, a ≤ bS → c ≤ bT → (a = 0 ∨ c = 0) → buf a c = ctx x b sbb tbb a c)
    {a c : Nat} (ha : a ≤ bS) (hc : c ≤ bT) :
    innerForward x.md (x.px b) (x.py b) (x.bd b) sbb tbb bS bT ord
      (firstForward x.md (x.px b) (x.py b) (x.bd b) sbb tbb origin buf) a c =
      ctx x b sbb tbb a c := by
  have h0 : BufInv x b sbb tbb bS bT 1
      (firstForward x.md (x.px b) (x.py b) (x.bd b) sbb tbb origin buf) := by
    intro a c ha hc hac
    simp only [firstForward]
    by_cases e : a = 1 ∧ c = 1
    · obtain ⟨rfl, rfl⟩ := e
      rw [upd_same]
      cases hor : origin with
      | true =>
        obtain ⟨e1, e2⟩ := ho.1 hor
        have := ctx_inner x b (a := 0) (c := 0) h1 h2 (by omega) (by omega)
        rw [show (1 : Nat) = 0 + 1 by rfl, this]
        simp only [e1, e2, Nat.zero_add, alpha_start, if_true]
      | false =>
        simp only [Bool.false_eq_true, if_false]
        apply cellForward_eq x b buf h1 h2 (by omega) (by omega)
        · by_contra hcon
          push Not at hcon
          have := ho.2 (by omega)
          simp [hor] at this
        · apply hbuf
          · omega
          · split <;> omega
          · left; rfl
        · apply hbuf <;> omega
    · rw [upd_other _ _ (by omega)]
      exact hbuf a c ha hc (by omega)
  have := forUp_inv (fun i buf => BufInv x b sbb tbb bS bT i buf) 1 (bS + bT - 2)
    (fun i buf => (ord i).foldl (fun buf s =>
      threadForward x.md (x.px b) (x.py b) (x.bd b) sbb tbb bS bT i s buf) buf)
    (firstForward x.md (x.px b) (x.py b) (x.bd b) sbb tbb origin buf) (by omega) h0
    (by
      intro i buf hi1 hi2 hb
      obtain ⟨g1, g2⟩ := threads_forward x b h1 h2 h3 h4 hi1 (ord i) buf hb
      intro a c ha hc hac
      by_cases e : a = 0 ∨ c = 0 ∨ a + c < i + 2
      · exact g1 a c ha hc e
      · have hs := g2 (a - 1) (by omega) (by omega) (by omega)
          (Or.inl ((hord i).mem_iff.2 (List.mem_range.2 (by omega))))
        rw [show a - 1 + 1 = a by omega, show i - (a - 1) + 1 = c by omega] at hs
        exact hs)
  exact this a c ha hc (by omega)

/-! ## Blocks -/

/-- A position of the rectangle of batch element `b`. -/
def Rect (d : Bound) (s t : Nat) : Prop := d.sb ≤ s ∧ s ≤ d.se ∧ d.tb ≤ t ∧ t ≤ d.te

/-- Number of the diagonal of blocks of a position. -/
def diag (bs : Nat) (d : Bound) (s t : Nat) : Nat := (s - d.sb) / bs + (t - d.tb) / bs

theorem div_le_of_lt_succ_mul {n k m : Nat} (hk : 0 < k) (h : n < (m + 1) * k) : n / k ≤ m := by
  have := (Nat.div_lt_iff_lt_mul hk).2 h
  omega

theorem mul_div_le_block {m k n : Nat} (hk : 0 < k) (h1 : m * k ≤ n) (h2 : n < m * k + k) :
    n / k = m := by
  apply Nat.le_antisymm
  · exact div_le_of_lt_succ_mul hk (by rw [Nat.add_mul]; omega)
  · exact (Nat.le_div_iff_mul_le hk).2 h1

section
variable (x : Input W) (g : Grid) (iter w : Nat)

def iB := elemOf x.B w
def iS := sBegin g.bs (blockOf x.B w) (x.bd (iB x w))
def iT := tBegin g.bs iter (blockOf x.B w) (x.bd (iB x w))
def nS := blockS g.bs (iS x g w) (x.bd (iB x w))
def nT := blockT g.bs (iT x g iter w) (x.bd (iB x w))
end

/-- Facts on an item with a block that is not empty. -/
structure Item (x : Input W) (g : Grid) (iter w : Nat) : Prop where
  b : iB x w < x.B
  le : blockOf x.B w ≤ iter

theorem item_of_lt (x : Input W) (g : Grid) (iter : Nat) {w : Nat}
    (hw : w < x.B * numBlocks g.bs x.S iter) : Item x g iter w := by
  have hB : 0 < x.B := by
    rcases Nat.eq_zero_or_pos x.B with h | h
    · rw [h] at hw; simp at hw
    · exact h
  refine ⟨Nat.mod_lt _ hB, ?_⟩
  have := Nat.div_lt_of_lt_mul hw
  simp only [blockOf, numBlocks] at *
  omega


theorem evForward_load (x : Input W) (g : Grid) (iter : Nat) (sc : Sched W) (w : Nat)
    (st : FState W) : evForward x g iter sc (.load w) st =
      if nS x g w = 0 ∨ nT x g iter w = 0 then st
      else { st with
       bufs := fun w' => if w' = w then
        (innerForward x.md (x.px (iB x w)) (x.py (iB x w)) (x.bd (iB x w)) (iS x g w) (iT x g iter w)
          (nS x g w) (nT x g iter w) (sc.ord w)
          (firstForward x.md (x.px (iB x w)) (x.py (iB x w)) (x.bd (iB x w)) (iS x g w) (iT x g iter w)
            (blockOf x.B w * g.bs + (iter - blockOf x.B w) * g.bs == 0)
            (loadForward g (st.p (iB x w)) (x.bd (iB x w)) (iS x g w) (iT x g iter w) (sc.junk w))))
        else st.bufs w' } := rfl

theorem evForward_store (x : Input W) (g : Grid) (iter : Nat) (sc : Sched W) (w : Nat)
    (st : FState W) : evForward x g iter sc (.store w) st =
      if nS x g w = 0 ∨ nT x g iter w = 0 then st
      else { st with
        p := (fun b' => if b' = iB x w then
          storeP (st.p (iB x w)) (st.bufs w) (iS x g w) (iT x g iter w) (nS x g w) (nT x g iter w)
          else st.p b')
        ans := (fun b' => if b' = iB x w ∧ iS x g w + nS x g w - 1 = (x.bd (iB x w)).se ∧
            iT x g iter w + nT x g iter w - 1 = (x.bd (iB x w)).te then
          st.bufs w (nS x g w) (nT x g iter w) else st.ans b') } := rfl

/-- The table of sums over alignments of batch element `b`. -/
abbrev tab (x : Input W) (b s t : Nat) : W :=
  alpha x.md (x.px b) (x.py b) (x.bd b).sb (x.bd b).tb s t

/-- The state within launch `iter`, after the events `l`. -/
structure EInv (x : Input W) (g : Grid) (iter : Nat) (st0 : FState W) (l : List Ev)
    (st : FState W) : Prop where
  earlier : ∀ b < x.B, ∀ s t, Rect (x.bd b) s t → diag g.bs (x.bd b) s t < iter →
    st.p b s t = tab x b s t
  earlierAns : ∀ b < x.B, diag g.bs (x.bd b) (x.bd b).se (x.bd b).te < iter →
    st.ans b = tab x b (x.bd b).se (x.bd b).te
  loaded : ∀ w, Ev.load w ∈ l → 0 < nS x g w → 0 < nT x g iter w →
    ∀ a c, a ≤ nS x g w → c ≤ nT x g iter w →
      st.bufs w a c = ctx x (iB x w) (iS x g w) (iT x g iter w) a c
  stored : ∀ w, Ev.store w ∈ l → ∀ s t, iS x g w ≤ s → s < iS x g w + nS x g w →
    iT x g iter w ≤ t → t < iT x g iter w + nT x g iter w →
      st.p (iB x w) s t = tab x (iB x w) s t ∧
      (s = (x.bd (iB x w)).se → t = (x.bd (iB x w)).te → st.ans (iB x w) = tab x (iB x w) s t)
  outside : ∀ b s t, ¬ (b < x.B ∧ Rect (x.bd b) s t) → st.p b s t = st0.p b s t
  outsideAns : ∀ b, ¬ b < x.B → st.ans b = st0.ans b

theorem EInv.load {x : Input W} {g : Grid} (hg : g.Ok) {iter : Nat} {sc : Sched W}
    {st0 st : FState W} {l : List Ev} (h : EInv x g iter st0 l st) {w : Nat}
    (hi : Item x g iter w) (hv : sc.Valid g (x.B * numBlocks g.bs x.S iter)) :
    EInv x g iter st0 (l ++ [Ev.load w]) (evForward x g iter sc (.load w) st) := by
  by_cases he : nS x g w = 0 ∨ nT x g iter w = 0
  · have e : evForward x g iter sc (.load w) st = st := by
      rw [evForward_load]; rw [if_pos he]
    rw [e]
    refine ⟨h.earlier, h.earlierAns, ?_, ?_, h.outside, h.outsideAns⟩
    · intro w' hw' h1 h2
      rcases List.mem_append.1 hw' with hw' | hw'
      · exact h.loaded w' hw' h1 h2
      · simp only [List.mem_singleton, Ev.load.injEq] at hw'
        subst hw'
        omega
    · intro w' hw'
      apply h.stored w'
      rcases List.mem_append.1 hw' with hw' | hw'
      · exact hw'
      · simp at hw'
  · have hS : 0 < nS x g w := by omega
    have hT : 0 < nT x g iter w := by omega
    have hbS : nS x g w ≤ g.bs := Nat.min_le_left _ _
    have hbT : nT x g iter w ≤ g.bs := Nat.min_le_left _ _
    have hS2 : nS x g w + iS x g w ≤ (x.bd (iB x w)).se + 1 := by
      have : nS x g w ≤ (x.bd (iB x w)).se + 1 - iS x g w := Nat.min_le_right _ _
      omega
    have hT2 : nT x g iter w + iT x g iter w ≤ (x.bd (iB x w)).te + 1 := by
      have : nT x g iter w ≤ (x.bd (iB x w)).te + 1 - iT x g iter w := Nat.min_le_right _ _
      omega
    have hsb : (x.bd (iB x w)).sb ≤ iS x g w := Nat.le_add_left _ _
    have htb : (x.bd (iB x w)).tb ≤ iT x g iter w := Nat.le_add_left _ _
    have hpos := hg.pos
    have hmany := hg.many
    have hsmall := hg.small
    have hle := hi.le
    refine ⟨?_, ?_, ?_, ?_, ?_, ?_⟩
    · intro b hb s t hr hd
      have := h.earlier b hb s t hr hd
      rw [evForward_load]; rw [if_neg he]; exact this
    · intro b hb hd
      have := h.earlierAns b hb hd
      rw [evForward_load]; rw [if_neg he]; exact this
    · intro w' hw' h1 h2 a c ha hc
      rw [evForward_load]
      rw [if_neg he]
      simp only
      by_cases e : w' = w
      · subst e
        rw [if_pos rfl]
        apply innerForward_eq x (iB x w') hsb htb hS2 hT2 hS hT (n := g.threads) (by omega)
          (sc.ord w') (hv.threads w')
        · -- origin
          simp only [beq_iff_eq, iS, iT, sBegin, tBegin]
          constructor
          · intro h0; omega
          · intro h0; omega
        · intro a c ha hc hac
          simp only [loadForward]
          rw [if_pos (by omega)]
          simp only [ctx, context]
          by_cases hcond : (x.bd (iB x w')).sb + 1 ≤ a + iS x g w' ∧
              a + iS x g w' ≤ (x.bd (iB x w')).se + 1 ∧
              (x.bd (iB x w')).tb + 1 ≤ c + iT x g iter w' ∧
              c + iT x g iter w' ≤ (x.bd (iB x w')).te + 1
          · rw [if_pos hcond, if_pos hcond]
            apply h.earlier _ hi.b
            · refine ⟨?_, ?_, ?_, ?_⟩ <;> omega
            · simp only [diag]
              obtain ⟨k, hk⟩ : ∃ k, iter = blockOf x.B w' + k := ⟨iter - blockOf x.B w', by omega⟩
              have eS : iS x g w' = blockOf x.B w' * g.bs + (x.bd (iB x w')).sb := rfl
              have eT : iT x g iter w' = k * g.bs + (x.bd (iB x w')).tb := by
                simp only [iT, tBegin, hk]; congr 2; omega
              rw [eS, eT] at hcond
              rw [eS, eT]
              rcases hac with rfl | rfl
              · have hb1 : 0 < blockOf x.B w' := by
                  by_contra hz
                  have : blockOf x.B w' = 0 := by omega
                  rw [this] at hcond
                  simp at hcond
                obtain ⟨m, hm⟩ : ∃ m, blockOf x.B w' = m + 1 := ⟨blockOf x.B w' - 1, by omega⟩
                have q1 : (0 + (blockOf x.B w' * g.bs + (x.bd (iB x w')).sb) - 1 -
                    (x.bd (iB x w')).sb) / g.bs ≤ m := by
                  apply div_le_of_lt_succ_mul hpos
                  rw [hm]
                  have : 0 < (m + 1) * g.bs := Nat.mul_pos (by omega) hpos
                  omega
                have q2 : (c + (k * g.bs + (x.bd (iB x w')).tb) - 1 -
                    (x.bd (iB x w')).tb) / g.bs ≤ k := by
                  apply div_le_of_lt_succ_mul hpos
                  rw [Nat.add_mul]
                  omega
                omega
              · have hb1 : 0 < k := by
                  by_contra hz
                  have : k = 0 := by omega
                  rw [this] at hcond
                  simp at hcond
                obtain ⟨m, hm⟩ : ∃ m, k = m + 1 := ⟨k - 1, by omega⟩
                have q1 : (0 + (k * g.bs + (x.bd (iB x w')).tb) - 1 -
                    (x.bd (iB x w')).tb) / g.bs ≤ m := by
                  apply div_le_of_lt_succ_mul hpos
                  rw [hm]
                  have : 0 < (m + 1) * g.bs := Nat.mul_pos (by omega) hpos
                  omega
                have q2 : (a + (blockOf x.B w' * g.bs + (x.bd (iB x w')).sb) - 1 -
                    (x.bd (iB x w')).sb) / g.bs ≤ blockOf x.B w' := by
                  apply div_le_of_lt_succ_mul hpos
                  rw [Nat.add_mul]
                  omega
                omega
          · rw [if_neg hcond, if_neg hcond]
        · exact ha
        · exact hc
      · rw [if_neg e]
        apply h.loaded w' _ h1 h2 a c ha hc
        rcases List.mem_append.1 hw' with hw' | hw'
        · exact hw'
        · simp only [List.mem_singleton, Ev.load.injEq] at hw'
          exact absurd hw' e
    · intro w' hw' s t h1 h2 h3 h4
      have hw'' : Ev.store w' ∈ l := by
        rcases List.mem_append.1 hw' with hw' | hw'
        · exact hw'
        · simp at hw'
      have := h.stored w' hw'' s t h1 h2 h3 h4
      rw [evForward_load]; rw [if_neg he]; exact this
    · intro b s t hb
      have := h.outside b s t hb
      rw [evForward_load]; rw [if_neg he]; exact this
    · intro b hb
      have := h.outsideAns b hb
      rw [evForward_load]; rw [if_neg he]; exact this

theorem EInv.store {x : Input W} {g : Grid} {iter : Nat} {sc : Sched W}
    {st0 st : FState W} {l : List Ev} (h : EInv x g iter st0 l st) {w : Nat}
    (hi : Item x g iter w) (hl : Ev.load w ∈ l) :
    EInv x g iter st0 (l ++ [Ev.store w]) (evForward x g iter sc (.store w) st) := by
  by_cases he : nS x g w = 0 ∨ nT x g iter w = 0
  · have e : evForward x g iter sc (.store w) st = st := by
      rw [evForward_store]; rw [if_pos he]
    rw [e]
    refine ⟨h.earlier, h.earlierAns, ?_, ?_, h.outside, h.outsideAns⟩
    · intro w' hw' h1 h2
      rcases List.mem_append.1 hw' with hw' | hw'
      · exact h.loaded w' hw' h1 h2
      · simp at hw'
    · intro w' hw' s t h1 h2 h3 h4
      rcases List.mem_append.1 hw' with hw' | hw'
      · exact h.stored w' hw' s t h1 h2 h3 h4
      · simp only [List.mem_singleton, Ev.store.injEq] at hw'
        subst hw'
        omega
  · have hS : 0 < nS x g w := by omega
    have hT : 0 < nT x g iter w := by omega
    have hS2 : nS x g w + iS x g w ≤ (x.bd (iB x w)).se + 1 := by
      have : nS x g w ≤ (x.bd (iB x w)).se + 1 - iS x g w := Nat.min_le_right _ _
      omega
    have hT2 : nT x g iter w + iT x g iter w ≤ (x.bd (iB x w)).te + 1 := by
      have : nT x g iter w ≤ (x.bd (iB x w)).te + 1 - iT x g iter w := Nat.min_le_right _ _
      omega
    have hsb : (x.bd (iB x w)).sb ≤ iS x g w := Nat.le_add_left _ _
    have htb : (x.bd (iB x w)).tb ≤ iT x g iter w := Nat.le_add_left _ _
    have hbuf := h.loaded w hl hS hT
    -- what the event writes
    have hp : ∀ b s t, (evForward x g iter sc (.store w) st).p b s t =
        if b = iB x w ∧ iS x g w ≤ s ∧ s < iS x g w + nS x g w ∧ iT x g iter w ≤ t ∧
            t < iT x g iter w + nT x g iter w then tab x b s t else st.p b s t := by
      intro b s t
      rw [evForward_store]
      rw [if_neg he]
      simp only
      by_cases e : b = iB x w
      · subst e
        rw [if_pos rfl]
        simp only [storeP]
        by_cases hc : iS x g w ≤ s ∧ s < iS x g w + nS x g w ∧ iT x g iter w ≤ t ∧
            t < iT x g iter w + nT x g iter w
        · rw [if_pos (by omega), if_pos ⟨trivial, hc⟩]
          have e1 := hbuf (s - iS x g w + 1) (t - iT x g iter w + 1) (by omega) (by omega)
          have e2 := ctx_inner x (iB x w) (a := s - iS x g w) (c := t - iT x g iter w)
            hsb htb (by omega) (by omega)
          rw [show s - iS x g w + iS x g w = s by omega,
            show t - iT x g iter w + iT x g iter w = t by omega] at e2
          exact e1.trans e2
        · rw [if_neg (by omega), if_neg (fun hh => hc hh.2)]
      · rw [if_neg e, if_neg (fun hh => e hh.1)]
    have hans : ∀ b, (evForward x g iter sc (.store w) st).ans b =
        if b = iB x w ∧ iS x g w + nS x g w - 1 = (x.bd (iB x w)).se ∧
            iT x g iter w + nT x g iter w - 1 = (x.bd (iB x w)).te then
          tab x b (x.bd b).se (x.bd b).te else st.ans b := by
      intro b
      rw [evForward_store]
      rw [if_neg he]
      simp only
      by_cases hc : b = iB x w ∧ iS x g w + nS x g w - 1 = (x.bd (iB x w)).se ∧
            iT x g iter w + nT x g iter w - 1 = (x.bd (iB x w)).te
      · rw [if_pos hc, if_pos hc]
        obtain ⟨e, c1, c2⟩ := hc
        subst e
        have e1 := hbuf (nS x g w) (nT x g iter w) (Nat.le_refl _) (Nat.le_refl _)
        have e2 := ctx_inner x (iB x w) (a := nS x g w - 1) (c := nT x g iter w - 1)
            hsb htb (by omega) (by omega)
        rw [show nS x g w - 1 + 1 = nS x g w by omega,
          show nT x g iter w - 1 + 1 = nT x g iter w by omega,
          show nS x g w - 1 + iS x g w = (x.bd (iB x w)).se by omega,
          show nT x g iter w - 1 + iT x g iter w = (x.bd (iB x w)).te by omega] at e2
        exact e1.trans e2
      · rw [if_neg hc, if_neg hc]
    refine ⟨?_, ?_, ?_, ?_, ?_, ?_⟩
    · intro b hb s t hr hd
      rw [hp]
      split
      · rfl
      · exact h.earlier b hb s t hr hd
    · intro b hb hd
      rw [hans]
      split
      · rfl
      · exact h.earlierAns b hb hd
    · intro w' hw' h1 h2 a c ha hc
      have hw'' : Ev.load w' ∈ l := by
        rcases List.mem_append.1 hw' with hw' | hw'
        · exact hw'
        · simp at hw'
      have := h.loaded w' hw'' h1 h2 a c ha hc
      rw [evForward_store]; rw [if_neg he]; exact this
    · intro w' hw' s t h1 h2 h3 h4
      rw [hp, hans]
      rcases List.mem_append.1 hw' with hw' | hw'
      · obtain ⟨e1, e2⟩ := h.stored w' hw' s t h1 h2 h3 h4
        constructor
        · split
          · rfl
          · exact e1
        · intro e3 e4
          split
          · rw [e3, e4]
          · exact e2 e3 e4
      · simp only [List.mem_singleton, Ev.store.injEq] at hw'
        subst hw'
        refine ⟨by rw [if_pos ⟨rfl, h1, h2, h3, h4⟩], ?_⟩
        intro e3 e4
        rw [if_pos ⟨rfl, by omega, by omega⟩, e3, e4]
    · intro b s t hb
      rw [hp, if_neg]
      · exact h.outside b s t hb
      · rintro ⟨e, c1, c2, c3, c4⟩
        apply hb
        subst e
        refine ⟨hi.b, ?_, ?_, ?_, ?_⟩ <;> omega
    · intro b hb
      rw [hans, if_neg]
      · exact h.outsideAns b hb
      · rintro ⟨e, _⟩
        subst e
        exact hb hi.b

theorem EInv.events {x : Input W} {g : Grid} (hg : g.Ok) {iter : Nat} {sc : Sched W}
    {st0 : FState W} (hv : sc.Valid g (x.B * numBlocks g.bs x.S iter)) (r : List Ev) :
    ∀ (l : List Ev) (st : FState W), sc.evs = l ++ r → EInv x g iter st0 l st →
      EInv x g iter st0 sc.evs (r.foldl (fun st e => evForward x g iter sc e st) st) := by
  induction r with
  | nil => intro l st h hi; rw [h, List.append_nil]; exact hi
  | cons e r ih =>
    intro l st h hinv
    rw [List.foldl_cons]
    apply ih (l ++ [e]) _ (by rw [h]; simp)
    have hmem : e ∈ sc.evs := by rw [h]; simp
    cases e with
    | load w => exact hinv.load hg (item_of_lt x g iter ((hv.loads w).1 hmem)) hv
    | store w =>
      exact hinv.store (item_of_lt x g iter ((hv.stores w).1 hmem)) (hv.order w l r h)

/-- The state before launch `iter`. -/
structure LInv (x : Input W) (g : Grid) (iter : Nat) (st0 st : FState W) : Prop where
  earlier : ∀ b < x.B, ∀ s t, Rect (x.bd b) s t → diag g.bs (x.bd b) s t < iter →
    st.p b s t = tab x b s t
  earlierAns : ∀ b < x.B, diag g.bs (x.bd b) (x.bd b).se (x.bd b).te < iter →
    st.ans b = tab x b (x.bd b).se (x.bd b).te
  outside : ∀ b s t, ¬ (b < x.B ∧ Rect (x.bd b) s t) → st.p b s t = st0.p b s t
  outsideAns : ∀ b, ¬ b < x.B → st.ans b = st0.ans b

/-- The item of a position. -/
theorem exists_item {x : Input W} (hx : x.Ok) {g : Grid} (hg : g.Ok) {b s t : Nat} (hb : b < x.B)
    (hr : Rect (x.bd b) s t) :
    ∃ w, w < x.B * numBlocks g.bs x.S (diag g.bs (x.bd b) s t) ∧ iB x w = b ∧
      iS x g w ≤ s ∧ s < iS x g w + nS x g w ∧
      iT x g (diag g.bs (x.bd b) s t) w ≤ t ∧
      t < iT x g (diag g.bs (x.bd b) s t) w + nT x g (diag g.bs (x.bd b) s t) w := by
  obtain ⟨r1, r2, r3, r4⟩ := hr
  obtain ⟨o1, o2, o3, o4⟩ := hx b hb
  have hpos := hg.pos
  obtain ⟨i, hi⟩ : ∃ i, i = (s - (x.bd b).sb) / g.bs := ⟨_, rfl⟩
  obtain ⟨j, hj⟩ : ∃ j, j = (t - (x.bd b).tb) / g.bs := ⟨_, rfl⟩
  have hd : diag g.bs (x.bd b) s t = i + j := by simp [diag, hi, hj]
  have hB : 0 < x.B := by omega
  have e1 : elemOf x.B (i * x.B + b) = b := by
    simp only [elemOf]
    rw [Nat.add_comm, Nat.add_mul_mod_self_right, Nat.mod_eq_of_lt hb]
  have e2 : blockOf x.B (i * x.B + b) = i := by
    simp only [blockOf]
    rw [Nat.add_comm, Nat.add_mul_div_right _ _ hB, Nat.div_eq_of_lt hb, Nat.zero_add]
  have hi1 : i * g.bs ≤ s - (x.bd b).sb := by rw [hi]; exact Nat.div_mul_le_self _ _
  have hi2 : s - (x.bd b).sb < i * g.bs + g.bs := by rw [hi]; exact Nat.lt_div_mul_add hpos
  have hj1 : j * g.bs ≤ t - (x.bd b).tb := by rw [hj]; exact Nat.div_mul_le_self _ _
  have hj2 : t - (x.bd b).tb < j * g.bs + g.bs := by rw [hj]; exact Nat.lt_div_mul_add hpos
  have hiS : i ≤ x.S / g.bs := by rw [hi]; exact Nat.div_le_div_right (by omega)
  refine ⟨i * x.B + b, ?_, e1, ?_⟩
  · have : i < numBlocks g.bs x.S (diag g.bs (x.bd b) s t) := by
      simp only [numBlocks, hd]; omega
    calc i * x.B + b < i * x.B + x.B := by omega
      _ = x.B * (i + 1) := by ring
      _ ≤ _ := Nat.mul_le_mul_left _ this
  · simp only [iB, iS, iT, nS, nT, e1, e2, hd, sBegin, tBegin, blockS, blockT,
      show i + j - i = j by omega]
    omega

theorem LInv.launch {x : Input W} (hx : x.Ok) {g : Grid} (hg : g.Ok) {iter : Nat} {sc : Sched W}
    {st0 st : FState W} (hv : sc.Valid g (x.B * numBlocks g.bs x.S iter))
    (h : LInv x g iter st0 st) : LInv x g (iter + 1) st0 (launchForward x g iter sc st) := by
  have he : EInv x g iter st0 sc.evs (launchForward x g iter sc st) := by
    apply EInv.events hg hv sc.evs [] st rfl
    exact ⟨h.earlier, h.earlierAns, by simp, by simp, h.outside, h.outsideAns⟩
  refine ⟨?_, ?_, he.outside, he.outsideAns⟩
  · intro b hb s t hr hd
    by_cases hlt : diag g.bs (x.bd b) s t < iter
    · exact he.earlier b hb s t hr hlt
    · have hd' : diag g.bs (x.bd b) s t = iter := by omega
      obtain ⟨w, hw, e, c1, c2, c3, c4⟩ := exists_item hx hg hb hr
      rw [hd'] at hw c3 c4
      subst e
      exact (he.stored w ((hv.stores w).2 hw) s t c1 c2 c3 c4).1
  · intro b hb hd
    by_cases hlt : diag g.bs (x.bd b) (x.bd b).se (x.bd b).te < iter
    · exact he.earlierAns b hb hlt
    · have hd' : diag g.bs (x.bd b) (x.bd b).se (x.bd b).te = iter := by omega
      obtain ⟨o1, o2, o3, o4⟩ := hx b hb
      obtain ⟨w, hw, e, c1, c2, c3, c4⟩ := exists_item hx hg hb
        (s := (x.bd b).se) (t := (x.bd b).te) ⟨o1, by omega, o3, by omega⟩
      rw [hd'] at hw c3 c4
      subst e
      exact (he.stored w ((hv.stores w).2 hw) _ _ c1 c2 c3 c4).2 rfl rfl

theorem diag_lt_numIters {x : Input W} (hx : x.Ok) {g : Grid} (hg : g.Ok) {b s t : Nat}
    (hb : b < x.B) (hr : Rect (x.bd b) s t) : diag g.bs (x.bd b) s t < numIters g.bs x.S x.T := by
  obtain ⟨r1, r2, r3, r4⟩ := hr
  obtain ⟨o1, o2, o3, o4⟩ := hx b hb
  have h1 : (s - (x.bd b).sb) / g.bs ≤ x.S / g.bs := Nat.div_le_div_right (by omega)
  have h2 : (t - (x.bd b).tb) / g.bs ≤ x.T / g.bs := Nat.div_le_div_right (by omega)
  simp only [diag, numIters]
  omega

theorem runForward_inv {x : Input W} (hx : x.Ok) {g : Grid} (hg : g.Ok) (sc : Nat → Sched W)
    (hv : ∀ iter, (sc iter).Valid g (x.B * numBlocks g.bs x.S iter)) (st0 : FState W) (n : Nat) :
    LInv x g n st0 ((List.range n).foldl (fun st iter => launchForward x g iter (sc iter) st) st0) := by
  induction n with
  | zero =>
    exact ⟨fun _ _ _ _ _ h => absurd h (Nat.not_lt_zero _), fun _ _ h => absurd h (Nat.not_lt_zero _),
      fun _ _ _ _ => rfl, fun _ _ => rfl⟩
  | succ n ih =>
    rw [List.range_succ, List.foldl_append]
    exact ih.launch hx hg (hv n)

end Verif.Rnnt.Cuda
