import Verif.Rnnt.Cuda.Forward
import Verif.Rnnt.MutualInfoBackward

/-! Correctness of the backward kernel. -/

namespace Verif.Rnnt.Cuda
open Verif.Loop Verif.Rnnt

set_option linter.unusedSectionVars false
variable {W : Type} [Field W] [DecidableEq W]

/-- What is needed of the numbers of batch element `b`: `p` is the table of the forward pass, the
total is not zero, and nothing cancels. -/
structure Elem (x : Input W) (p : Nat → Nat → Nat → W) (b : Nat) : Prop where
  ses : (x.bd b).sb ≤ (x.bd b).se
  tes : (x.bd b).tb ≤ (x.bd b).te
  table : ∀ s t, Rect (x.bd b) s t → p b s t = tab x b s t
  total : tab x b (x.bd b).se (x.bd b).te ≠ 0
  zx : ∀ s t, Rect (x.bd b) s t → Rect (x.bd b) (s + 1) (t + negOff x.md) →
    tab x b (s + 1) (t + negOff x.md) = 0 → tab x b s t * x.px b s t = 0
  zy : ∀ s t, Rect (x.bd b) s t → Rect (x.bd b) s (t + 1) →
    tab x b s (t + 1) = 0 → tab x b s t * x.py b s t = 0

/-- The gradients: of `p`, `px` and `py`. -/
abbrev gp (x : Input W) (g : Nat → W) (b s t : Nat) : W :=
  GT x.md (x.px b) (x.py b) (x.bd b).sb (x.bd b).tb (x.bd b).se (x.bd b).te (g b) s t
abbrev gx (x : Input W) (g : Nat → W) (b s t : Nat) : W :=
  XT x.md (x.px b) (x.py b) (x.bd b).sb (x.bd b).tb (x.bd b).se (x.bd b).te (g b) s t
abbrev gy (x : Input W) (g : Nat → W) (b s t : Nat) : W :=
  YT x.md (x.px b) (x.py b) (x.bd b).sb (x.bd b).tb (x.bd b).se (x.bd b).te (g b) s t

/-- What belongs into `p_buf[a][c]`. -/
def gctx (x : Input W) (g : Nat → W) (b sbb tbb a c : Nat) : W :=
  if a + sbb ≤ (x.bd b).se ∧ c + tbb ≤ (x.bd b).te then gp x g b (a + sbb) (c + tbb) else 0

theorem frames_eq (md : Bool) : Step.X.frames md = negOff md := by cases md <;> rfl

theorem gctx_x {x : Input W} {p : Nat → Nat → Nat → W} {b : Nat} (h : Elem x p b) (g : Nat → W)
    {sbb tbb a c : Nat} (h1 : (x.bd b).sb ≤ sbb) (h2 : (x.bd b).tb ≤ tbb)
    (h3 : a + sbb ≤ (x.bd b).se) (h4 : c + tbb ≤ (x.bd b).te) :
    gctx x g b sbb tbb (a + 1) (c + negOff x.md) *
      term1 x.md (x.px b) (p b) (x.bd b) sbb tbb a c = gx x g b (a + sbb) (c + tbb) := by
  by_cases hc : a + sbb < (x.bd b).se ∧ c + tbb + negOff x.md ≤ (x.bd b).te
  · have hr : Rect (x.bd b) (a + sbb) (c + tbb) := ⟨by omega, by omega, by omega, by omega⟩
    have hr' : Rect (x.bd b) (a + sbb + 1) (c + tbb + negOff x.md) :=
      ⟨by omega, by omega, by omega, by omega⟩
    have e1 : pLoad (p b) (x.bd b) sbb tbb a c = tab x b (a + sbb) (c + tbb) := by
      rw [← h.table _ _ hr]; exact if_pos (by omega)
    have e2 : pLoad (p b) (x.bd b) sbb tbb (a + 1) (c + negOff x.md) =
        tab x b (a + sbb + 1) (c + tbb + negOff x.md) := by
      rw [← h.table _ _ hr']
      simp only [pLoad]
      rw [if_pos (by omega)]
      congr 1 <;> omega
    have e3 : pxLoad (x.px b) (x.bd b) sbb tbb a c = x.px b (a + sbb) (c + tbb) := if_pos (by omega)
    have e4 : gctx x g b sbb tbb (a + 1) (c + negOff x.md) =
        gp x g b (a + sbb + 1) (c + tbb + negOff x.md) := by
      simp only [gctx]
      rw [if_pos (by omega)]
      congr 1 <;> omega
    rw [e4]
    simp only [term1, e1, e2, e3, gp, gx, GT, XT, frames_eq]
    have hz := h.zx _ _ hr hr'
    simp only [tab] at hz
    generalize beta x.md (x.px b) (x.py b) (x.bd b).se (x.bd b).te (a + sbb + 1)
      (c + tbb + negOff x.md) = B
    simp only [tab]
    generalize alpha x.md (x.px b) (x.py b) (x.bd b).sb (x.bd b).tb (a + sbb + 1)
      (c + tbb + negOff x.md) = Q at *
    generalize alpha x.md (x.px b) (x.py b) (x.bd b).sb (x.bd b).tb (a + sbb) (c + tbb) = P at *
    generalize x.px b (a + sbb) (c + tbb) = X at *
    simp only [safeTerm]
    by_cases k1 : X = 0
    · simp [k1]
    · rw [if_neg k1]
      by_cases k2 : P = 0
      · by_cases k3 : Q = 0
        · simp [k2, k3]
        · simp [k2, k3]
      · by_cases k3 : Q = 0
        · exact absurd (hz k3) (mul_ne_zero k2 k1)
        · rw [if_neg (fun hh => k2 hh.1), if_neg k2, if_neg k3]
          field_simp
  · have e4 : gctx x g b sbb tbb (a + 1) (c + negOff x.md) = 0 := if_neg (by omega)
    rw [e4, zero_mul]
    have : beta x.md (x.px b) (x.py b) (x.bd b).se (x.bd b).te (a + sbb + 1)
        (c + tbb + negOff x.md) = 0 := if_neg (by omega)
    simp only [gx, XT, frames_eq, this]
    simp

theorem gctx_y {x : Input W} {p : Nat → Nat → Nat → W} {b : Nat} (h : Elem x p b) (g : Nat → W)
    {sbb tbb a c : Nat} (h1 : (x.bd b).sb ≤ sbb) (h2 : (x.bd b).tb ≤ tbb)
    (h3 : a + sbb ≤ (x.bd b).se) (h4 : c + tbb ≤ (x.bd b).te) :
    gctx x g b sbb tbb a (c + 1) *
      term2 (x.py b) (p b) (x.bd b) sbb tbb a c = gy x g b (a + sbb) (c + tbb) := by
  by_cases hc : c + tbb < (x.bd b).te
  · have hr : Rect (x.bd b) (a + sbb) (c + tbb) := ⟨by omega, by omega, by omega, by omega⟩
    have hr' : Rect (x.bd b) (a + sbb) (c + tbb + 1) :=
      ⟨by omega, by omega, by omega, by omega⟩
    have e1 : pLoad (p b) (x.bd b) sbb tbb a c = tab x b (a + sbb) (c + tbb) := by
      rw [← h.table _ _ hr]; exact if_pos (by omega)
    have e2 : pLoad (p b) (x.bd b) sbb tbb a (c + 1) = tab x b (a + sbb) (c + tbb + 1) := by
      rw [← h.table _ _ hr']
      simp only [pLoad]
      rw [if_pos (by omega)]
      congr 1; omega
    have e3 : pyLoad (x.py b) (x.bd b) sbb tbb a c = x.py b (a + sbb) (c + tbb) := if_pos (by omega)
    have e4 : gctx x g b sbb tbb a (c + 1) = gp x g b (a + sbb) (c + tbb + 1) := by
      simp only [gctx]
      rw [if_pos (by omega)]
      congr 1; omega
    rw [e4]
    simp only [term2, e1, e2, e3, gp, gy, GT, YT]
    have hz := h.zy _ _ hr hr'
    simp only [tab] at hz
    generalize beta x.md (x.px b) (x.py b) (x.bd b).se (x.bd b).te (a + sbb) (c + tbb + 1) = B
    simp only [tab]
    generalize alpha x.md (x.px b) (x.py b) (x.bd b).sb (x.bd b).tb (a + sbb)
      (c + tbb + 1) = Q at *
    generalize alpha x.md (x.px b) (x.py b) (x.bd b).sb (x.bd b).tb (a + sbb) (c + tbb) = P at *
    generalize x.py b (a + sbb) (c + tbb) = X at *
    simp only [safeTerm]
    by_cases k1 : X = 0
    · simp [k1]
    · rw [if_neg k1]
      by_cases k2 : P = 0
      · by_cases k3 : Q = 0
        · simp [k2, k3]
        · simp [k2, k3]
      · by_cases k3 : Q = 0
        · exact absurd (hz k3) (mul_ne_zero k2 k1)
        · rw [if_neg (fun hh => k2 hh.1), if_neg k2, if_neg k3]
          field_simp
  · have e4 : gctx x g b sbb tbb a (c + 1) = 0 := if_neg (by omega)
    rw [e4, zero_mul]
    have : beta x.md (x.px b) (x.py b) (x.bd b).se (x.bd b).te (a + sbb) (c + tbb + 1) = 0 :=
      if_neg (by omega)
    simp only [gy, YT, this]
    simp

theorem gctx_step {x : Input W} {p : Nat → Nat → Nat → W} {b : Nat} (h : Elem x p b) (g : Nat → W)
    {sbb tbb a c : Nat} (h1 : (x.bd b).sb ≤ sbb) (h2 : (x.bd b).tb ≤ tbb)
    (h3 : a + sbb ≤ (x.bd b).se) (h4 : c + tbb ≤ (x.bd b).te)
    (hne : a + sbb ≠ (x.bd b).se ∨ c + tbb ≠ (x.bd b).te) :
    gctx x g b sbb tbb a c =
      gctx x g b sbb tbb (a + 1) (c + negOff x.md) *
        term1 x.md (x.px b) (p b) (x.bd b) sbb tbb a c +
      gctx x g b sbb tbb a (c + 1) * term2 (x.py b) (p b) (x.bd b) sbb tbb a c := by
  rw [gctx_x h g h1 h2 h3 h4, gctx_y h g h1 h2 h3 h4]
  have e : gctx x g b sbb tbb a c = gp x g b (a + sbb) (c + tbb) := if_pos ⟨h3, h4⟩
  rw [e]
  exact GT_eq x.md (x.px b) (x.py b) (x.bd b).sb (x.bd b).tb (x.bd b).se (x.bd b).te (g b) h3 h4 hne

/-- `p_buf` when the inner iterations from `i` on have been done. -/
def GBuf (x : Input W) (g : Nat → W) (b sbb tbb bS bT i : Nat) (buf : Nat → Nat → W) : Prop :=
  ∀ a c, a ≤ bS → c ≤ bT → (a = bS ∨ c = bT ∨ i ≤ a + c) → buf a c = gctx x g b sbb tbb a c

theorem threads_backward {x : Input W} {p : Nat → Nat → Nat → W} {b : Nat} (h : Elem x p b)
    (g : Nat → W) {sbb tbb bS bT i : Nat}
    (h1 : (x.bd b).sb ≤ sbb) (h2 : (x.bd b).tb ≤ tbb)
    (h3 : bS + sbb ≤ (x.bd b).se + 1) (h4 : bT + tbb ≤ (x.bd b).te + 1)
    (hfin : ∀ s, s < bS → s ≤ i → i - s < bT →
      s + sbb ≠ (x.bd b).se ∨ i - s + tbb ≠ (x.bd b).te)
    (l : List Nat) (buf : Nat → Nat → W) (hb : GBuf x g b sbb tbb bS bT (i + 1) buf) :
    let r := l.foldl (fun buf s =>
      threadBackward x.md (x.px b) (x.py b) (p b) (x.bd b) sbb tbb bS bT i s buf) buf
    GBuf x g b sbb tbb bS bT (i + 1) r ∧
      ∀ s, s < bS → s ≤ i → i - s < bT →
        (s ∈ l ∨ buf s (i - s) = gctx x g b sbb tbb s (i - s)) →
        r s (i - s) = gctx x g b sbb tbb s (i - s) := by
  induction l generalizing buf with
  | nil =>
    refine ⟨hb, ?_⟩
    intro s _ _ _ hs
    simpa using hs
  | cons s0 l ih =>
    simp only [List.foldl_cons]
    by_cases hc : s0 < bS ∧ s0 ≤ i ∧ i - s0 < bT
    · have hn : negOff x.md ≤ 1 := by simp only [negOff]; split <;> omega
      have e1 : buf (s0 + 1) (i - s0 + negOff x.md) =
          gctx x g b sbb tbb (s0 + 1) (i - s0 + negOff x.md) := by
        apply hb <;> omega
      have e2 : buf s0 (i - s0 + 1) = gctx x g b sbb tbb s0 (i - s0 + 1) := by
        apply hb <;> omega
      have hbuf : threadBackward x.md (x.px b) (x.py b) (p b) (x.bd b) sbb tbb bS bT i s0 buf =
          upd buf s0 (i - s0) (gctx x g b sbb tbb s0 (i - s0)) := by
        simp only [threadBackward]
        rw [if_pos hc, e1, e2, ← gctx_step h g h1 h2 (by omega) (by omega)
          (hfin s0 hc.1 hc.2.1 hc.2.2)]
      rw [hbuf]
      have hinv : GBuf x g b sbb tbb bS bT (i + 1)
          (upd buf s0 (i - s0) (gctx x g b sbb tbb s0 (i - s0))) := by
        intro a c ha hc' hac
        rw [upd_other _ _ (by omega)]
        exact hb a c ha hc' hac
      obtain ⟨g1, g2⟩ := ih _ hinv
      refine ⟨g1, ?_⟩
      intro s hs1 hs2 hs3 hs
      apply g2 s hs1 hs2 hs3
      by_cases e : s = s0
      · subst e; right; rw [upd_same]
      · rcases hs with hs | hs
        · left
          rcases List.mem_cons.1 hs with hs | hs
          · exact absurd hs e
          · exact hs
        · right
          rw [upd_other _ _ (Or.inl e)]; exact hs
    · have hbuf : threadBackward x.md (x.px b) (x.py b) (p b) (x.bd b) sbb tbb bS bT i s0 buf =
          buf := by
        simp only [threadBackward]; rw [if_neg hc]
      rw [hbuf]
      obtain ⟨g1, g2⟩ := ih _ hb
      refine ⟨g1, ?_⟩
      intro s hs1 hs2 hs3 hs
      apply g2 s hs1 hs2 hs3
      rcases hs with hs | hs
      · rcases List.mem_cons.1 hs with hs | hs
        · subst hs; exact absurd ⟨hs1, hs2, hs3⟩ hc
        · exact Or.inl hs
      · exact Or.inr hs

theorem innerBackward_eq {x : Input W} {p : Nat → Nat → Nat → W} {b : Nat} (h : Elem x p b)
    (g : Nat → W) {sbb tbb bS bT n : Nat}
    (h1 : (x.bd b).sb ≤ sbb) (h2 : (x.bd b).tb ≤ tbb)
    (h3 : bS + sbb ≤ (x.bd b).se + 1) (h4 : bT + tbb ≤ (x.bd b).te + 1)
    (hS : 0 < bS) (hT : 0 < bT) (hn : bS ≤ n)
    (ord : Nat → List Nat) (hord : ∀ i, (ord i).Perm (List.range n))
    (buf : Nat → Nat → W)
    (hbuf : ∀ a c, a ≤ bS → c ≤ bT → (a = bS ∨ c = bT) → buf a c = gctx x g b sbb tbb a c)
    {a c : Nat} (ha : a ≤ bS) (hc : c ≤ bT) :
    innerBackward x.md (x.px b) (x.py b) (p b) (x.bd b) sbb tbb bS bT (g b) ord buf a c =
      gctx x g b sbb tbb a c := by
  simp only [innerBackward]
  by_cases hf : sbb + bS = (x.bd b).se + 1 ∧ tbb + bT = (x.bd b).te + 1
  · have hf' : (sbb + bS == (x.bd b).se + 1 && tbb + bT == (x.bd b).te + 1) = true := by
      simp [hf]
    rw [hf']
    simp only [if_true]
    have h0 : GBuf x g b sbb tbb bS bT (bS + bT - 2) (upd buf (bS - 1) (bT - 1) (g b)) := by
      intro a c ha hc hac
      by_cases e : a = bS - 1 ∧ c = bT - 1
      · obtain ⟨rfl, rfl⟩ := e
        rw [upd_same]
        simp only [gctx]
        rw [if_pos (by omega), show bS - 1 + sbb = (x.bd b).se by omega,
          show bT - 1 + tbb = (x.bd b).te by omega]
        exact (GT_end x.md (x.px b) (x.py b) _ _ _ _ (g b) h.total).symm
      · rw [upd_other _ _ (by omega)]
        exact hbuf a c ha hc (by omega)
    have := forDown_inv (fun i buf => GBuf x g b sbb tbb bS bT i buf) (bS + bT - 2) 0
      (fun i buf => (ord (i - 1)).foldl (fun buf s =>
        threadBackward x.md (x.px b) (x.py b) (p b) (x.bd b) sbb tbb bS bT (i - 1) s buf) buf)
      _ (by omega) h0
      (by
        intro i buf hi1 hi2 hb
        simp only [Nat.add_sub_cancel]
        obtain ⟨g1, g2⟩ := threads_backward h g h1 h2 h3 h4 (by intro s _ _ _; omega) (ord i) buf hb
        intro a c ha hc hac
        by_cases e : a = bS ∨ c = bT ∨ i + 1 ≤ a + c
        · exact g1 a c ha hc e
        · have hs := g2 a (by omega) (by omega) (by omega)
            (Or.inl ((hord i).mem_iff.2 (List.mem_range.2 (by omega))))
          rw [show i - a = c by omega] at hs
          exact hs)
    exact this a c ha hc (by omega)
  · have hf' : (sbb + bS == (x.bd b).se + 1 && tbb + bT == (x.bd b).te + 1) = false := by
      simpa using hf
    rw [hf']
    simp only [Bool.false_eq_true, if_false]
    have h0 : GBuf x g b sbb tbb bS bT (bS + bT - 1) buf := by
      intro a c ha hc hac
      exact hbuf a c ha hc (by omega)
    have := forDown_inv (fun i buf => GBuf x g b sbb tbb bS bT i buf) (bS + bT - 1) 0
      (fun i buf => (ord (i - 1)).foldl (fun buf s =>
        threadBackward x.md (x.px b) (x.py b) (p b) (x.bd b) sbb tbb bS bT (i - 1) s buf) buf)
      _ (by omega) h0
      (by
        intro i buf hi1 hi2 hb
        simp only [Nat.add_sub_cancel]
        obtain ⟨g1, g2⟩ := threads_backward h g h1 h2 h3 h4 (by intro s _ _ _; omega) (ord i) buf hb
        intro a c ha hc hac
        by_cases e : a = bS ∨ c = bT ∨ i + 1 ≤ a + c
        · exact g1 a c ha hc e
        · have hs := g2 a (by omega) (by omega) (by omega)
            (Or.inl ((hord i).mem_iff.2 (List.mem_range.2 (by omega))))
          rw [show i - a = c by omega] at hs
          exact hs)
    exact this a c ha hc (by omega)

/-! ## Events and launches -/

theorem evBackward_load (x : Input W) (p : Nat → Nat → Nat → W) (ow : Bool) (g : Grid) (iter : Nat)
    (sc : Sched W) (w : Nat) (st : BState W) : evBackward x p ow g iter sc (.load w) st =
      if nS x g w = 0 ∨ nT x g iter w = 0 then st
      else { st with
       bufs := fun w' => if w' = w then
        (innerBackward x.md (x.px (iB x w)) (x.py (iB x w)) (p (iB x w)) (x.bd (iB x w)) (iS x g w)
          (iT x g iter w) (nS x g w) (nT x g iter w) (st.ag (iB x w)) (sc.ord w)
            (loadBackward g (st.pg (iB x w)) (x.bd (iB x w)) (iS x g w) (iT x g iter w) (nS x g w)
              (nT x g iter w) (sc.junk w)))
        else st.bufs w' } := rfl

theorem evBackward_store (x : Input W) (p : Nat → Nat → Nat → W) (ow : Bool) (g : Grid) (iter : Nat)
    (sc : Sched W) (w : Nat) (st : BState W) : evBackward x p ow g iter sc (.store w) st =
      if nS x g w = 0 ∨ nT x g iter w = 0 then st
      else { st with
        pg := (fun b' s t => if b' = iB x w ∧ inBlock g.bs (iS x g w) (iT x g iter w) (x.bd (iB x w)) s t
          then st.bufs w (s - iS x g w) (t - iT x g iter w) else st.pg b' s t)
        xg := (fun b' s t =>
          if b' = iB x w ∧ inBlock g.bs (iS x g w) (iT x g iter w) (x.bd (iB x w)) s t ∧
              s < (x.bd (iB x w)).se ∧ t + negOff x.md ≤ (x.bd (iB x w)).te then
            st.bufs w (s - iS x g w + 1) (t - iT x g iter w + negOff x.md) *
              term1 x.md (x.px (iB x w)) (p (iB x w)) (x.bd (iB x w)) (iS x g w) (iT x g iter w)
                (s - iS x g w) (t - iT x g iter w)
          else st.xg b' s t)
        yg := (fun b' s t =>
          if b' = iB x w ∧ inBlock g.bs (iS x g w) (iT x g iter w) (x.bd (iB x w)) s t ∧
              t < (x.bd (iB x w)).te then
            st.bufs w (s - iS x g w) (t - iT x g iter w + 1) *
              term2 (x.py (iB x w)) (p (iB x w)) (x.bd (iB x w)) (iS x g w) (iT x g iter w)
                (s - iS x g w) (t - iT x g iter w)
          else st.yg b' s t)
        ag := (fun b' => if b' = iB x w ∧ iS x g w = (x.bd (iB x w)).sb ∧
            iT x g iter w = (x.bd (iB x w)).tb ∧ ow then st.bufs w 0 0 else st.ag b') } := rfl

/-- Where `px_grad` and `py_grad` are written. -/
def xDom (x : Input W) (b s t : Nat) : Prop :=
  b < x.B ∧ Rect (x.bd b) s t ∧ s < (x.bd b).se ∧ t + negOff x.md ≤ (x.bd b).te
def yDom (x : Input W) (b s t : Nat) : Prop :=
  b < x.B ∧ Rect (x.bd b) s t ∧ t < (x.bd b).te

/-- All gradients at a position are right. -/
def Right (x : Input W) (g : Nat → W) (b s t : Nat) (st : BState W) : Prop :=
  st.pg b s t = gp x g b s t ∧ (xDom x b s t → st.xg b s t = gx x g b s t) ∧
    (yDom x b s t → st.yg b s t = gy x g b s t)

structure GInv (x : Input W) (g : Grid) (st0 : BState W) (iter : Nat) (l : List Ev)
    (st : BState W) : Prop where
  later : ∀ b < x.B, ∀ s t, Rect (x.bd b) s t → iter < diag g.bs (x.bd b) s t →
    Right x st0.ag b s t st
  loaded : ∀ w, Ev.load w ∈ l → 0 < nS x g w → 0 < nT x g iter w →
    ∀ a c, a ≤ nS x g w → c ≤ nT x g iter w →
      st.bufs w a c = gctx x st0.ag (iB x w) (iS x g w) (iT x g iter w) a c
  stored : ∀ w, Ev.store w ∈ l → ∀ s t, iS x g w ≤ s → s < iS x g w + nS x g w →
    iT x g iter w ≤ t → t < iT x g iter w + nT x g iter w → Right x st0.ag (iB x w) s t st
  ag : ∀ b, st.ag b = st0.ag b
  outsideX : ∀ b s t, ¬ xDom x b s t → st.xg b s t = st0.xg b s t
  outsideY : ∀ b s t, ¬ yDom x b s t → st.yg b s t = st0.yg b s t

theorem nS_le (x : Input W) (g : Grid) (w : Nat) : nS x g w ≤ g.bs := Nat.min_le_left _ _
theorem nT_le (x : Input W) (g : Grid) (iter w : Nat) : nT x g iter w ≤ g.bs := Nat.min_le_left _ _
theorem iS_le (x : Input W) (g : Grid) (w : Nat) : (x.bd (iB x w)).sb ≤ iS x g w :=
  Nat.le_add_left _ _
theorem iT_le (x : Input W) (g : Grid) (iter w : Nat) : (x.bd (iB x w)).tb ≤ iT x g iter w :=
  Nat.le_add_left _ _
theorem nS_eq (x : Input W) (g : Grid) (w : Nat) :
    nS x g w = min g.bs ((x.bd (iB x w)).se + 1 - iS x g w) := rfl
theorem nT_eq (x : Input W) (g : Grid) (iter w : Nat) :
    nT x g iter w = min g.bs ((x.bd (iB x w)).te + 1 - iT x g iter w) := rfl

theorem GInv.load {x : Input W} {p : Nat → Nat → Nat → W} (hp : ∀ b < x.B, Elem x p b) {ow : Bool}
    {g : Grid} (hg : g.Ok) {iter : Nat} {sc : Sched W}
    {st0 st : BState W} {l : List Ev} (h : GInv x g st0 iter l st) {w : Nat}
    (hi : Item x g iter w) (hv : sc.Valid g (x.B * numBlocks g.bs x.S iter)) :
    GInv x g st0 iter (l ++ [Ev.load w]) (evBackward x p ow g iter sc (.load w) st) := by
  rw [evBackward_load]
  by_cases he : nS x g w = 0 ∨ nT x g iter w = 0
  · rw [if_pos he]
    refine ⟨h.later, ?_, ?_, h.ag, h.outsideX, h.outsideY⟩
    · intro w' hw' h1 h2
      rcases List.mem_append.1 hw' with hw' | hw'
      · exact h.loaded w' hw' h1 h2
      · simp only [List.mem_singleton, Ev.load.injEq] at hw'
        subst hw'
        omega
    · intro w' hw'
      apply h.stored w'
      rcases List.mem_append.1 hw' with hw' | hw'
      · exact hw'
      · simp at hw'
  · rw [if_neg he]
    have hS : 0 < nS x g w := by omega
    have hT : 0 < nT x g iter w := by omega
    have hbS := nS_le x g w
    have hbT := nT_le x g iter w
    have hS1 := nS_eq x g w
    have hT1 := nT_eq x g iter w
    have hsb := iS_le x g w
    have htb := iT_le x g iter w
    have hpos := hg.pos
    have hmany := hg.many
    have hsmall := hg.small
    have hle := hi.le
    refine ⟨h.later, ?_, ?_, h.ag, h.outsideX, h.outsideY⟩
    · intro w' hw' h1 h2 a c ha hc
      simp only
      by_cases e : w' = w
      · subst e
        rw [if_pos rfl, h.ag]
        apply innerBackward_eq (hp _ hi.b) st0.ag hsb htb (by omega) (by omega) hS hT
          (n := g.threads) (by omega) (sc.ord w') (hv.threads w')
        · intro a c ha hc hac
          simp only [loadBackward]
          rw [if_pos (by omega)]
          simp only [gctx]
          by_cases hcond : a + iS x g w' ≤ (x.bd (iB x w')).se ∧
              c + iT x g iter w' ≤ (x.bd (iB x w')).te
          · rw [if_pos hcond, if_pos hcond]
            refine (h.later _ hi.b _ _ ⟨by omega, by omega, by omega, by omega⟩ ?_).1
            simp only [diag]
            obtain ⟨k, hk⟩ : ∃ k, iter = blockOf x.B w' + k := ⟨iter - blockOf x.B w', by omega⟩
            have eS : iS x g w' = blockOf x.B w' * g.bs + (x.bd (iB x w')).sb := rfl
            have eT : iT x g iter w' = k * g.bs + (x.bd (iB x w')).tb := by
              simp only [iT, tBegin, hk]; congr 2; omega
            rw [eS, eT]
            have q1 : blockOf x.B w' ≤ (a + (blockOf x.B w' * g.bs + (x.bd (iB x w')).sb) -
                (x.bd (iB x w')).sb) / g.bs := by
              rw [Nat.le_div_iff_mul_le hpos]; omega
            have q2 : k ≤ (c + (k * g.bs + (x.bd (iB x w')).tb) -
                (x.bd (iB x w')).tb) / g.bs := by
              rw [Nat.le_div_iff_mul_le hpos]; omega
            rcases hac with rfl | rfl
            · have : nS x g w' = g.bs := by omega
              have q3 : blockOf x.B w' + 1 ≤ (nS x g w' + (blockOf x.B w' * g.bs +
                  (x.bd (iB x w')).sb) - (x.bd (iB x w')).sb) / g.bs := by
                rw [Nat.le_div_iff_mul_le hpos, Nat.add_mul]; omega
              omega
            · have : nT x g iter w' = g.bs := by omega
              have q3 : k + 1 ≤ (nT x g iter w' + (k * g.bs + (x.bd (iB x w')).tb) -
                  (x.bd (iB x w')).tb) / g.bs := by
                rw [Nat.le_div_iff_mul_le hpos, Nat.add_mul]; omega
              omega
          · rw [if_neg hcond, if_neg hcond]
        · exact ha
        · exact hc
      · rw [if_neg e]
        apply h.loaded w' _ h1 h2 a c ha hc
        rcases List.mem_append.1 hw' with hw' | hw'
        · exact hw'
        · simp only [List.mem_singleton, Ev.load.injEq] at hw'
          exact absurd hw' e
    · intro w' hw' s t h1 h2 h3 h4
      have hw'' : Ev.store w' ∈ l := by
        rcases List.mem_append.1 hw' with hw' | hw'
        · exact hw'
        · simp at hw'
      exact h.stored w' hw'' s t h1 h2 h3 h4

theorem GInv.store {x : Input W} {p : Nat → Nat → Nat → W} (hp : ∀ b < x.B, Elem x p b) {ow : Bool}
    {g : Grid} {iter : Nat} {sc : Sched W}
    {st0 st : BState W} {l : List Ev} (h : GInv x g st0 iter l st) {w : Nat}
    (hi : Item x g iter w) (hl : Ev.load w ∈ l) :
    GInv x g st0 iter (l ++ [Ev.store w]) (evBackward x p ow g iter sc (.store w) st) := by
  by_cases he : nS x g w = 0 ∨ nT x g iter w = 0
  · rw [evBackward_store, if_pos he]
    refine ⟨h.later, ?_, ?_, h.ag, h.outsideX, h.outsideY⟩
    · intro w' hw' h1 h2
      rcases List.mem_append.1 hw' with hw' | hw'
      · exact h.loaded w' hw' h1 h2
      · simp at hw'
    · intro w' hw' s t h1 h2 h3 h4
      rcases List.mem_append.1 hw' with hw' | hw'
      · exact h.stored w' hw' s t h1 h2 h3 h4
      · simp only [List.mem_singleton, Ev.store.injEq] at hw'
        subst hw'
        omega
  · have hS : 0 < nS x g w := by omega
    have hT : 0 < nT x g iter w := by omega
    have hS1 := nS_eq x g w
    have hT1 := nT_eq x g iter w
    have hsb := iS_le x g w
    have htb := iT_le x g iter w
    have hbuf := h.loaded w hl hS hT
    have hE := hp _ hi.b
    have hn : negOff x.md ≤ 1 := by simp only [negOff]; split <;> omega
    have hpg : ∀ b s t, (evBackward x p ow g iter sc (.store w) st).pg b s t =
        if b = iB x w ∧ inBlock g.bs (iS x g w) (iT x g iter w) (x.bd (iB x w)) s t then
          gp x st0.ag b s t else st.pg b s t := by
      intro b s t
      rw [evBackward_store, if_neg he]
      simp only
      by_cases hc : b = iB x w ∧ inBlock g.bs (iS x g w) (iT x g iter w) (x.bd (iB x w)) s t
      · rw [if_pos hc, if_pos hc]
        obtain ⟨rfl, c1, c2, c3, c4, c5, c6⟩ := hc
        rw [hbuf _ _ (by omega) (by omega)]
        simp only [gctx]
        rw [if_pos (by omega)]
        congr 1 <;> omega
      · rw [if_neg hc, if_neg hc]
    have hxg : ∀ b s t, (evBackward x p ow g iter sc (.store w) st).xg b s t =
        if b = iB x w ∧ inBlock g.bs (iS x g w) (iT x g iter w) (x.bd (iB x w)) s t ∧
            s < (x.bd (iB x w)).se ∧ t + negOff x.md ≤ (x.bd (iB x w)).te then
          gx x st0.ag b s t else st.xg b s t := by
      intro b s t
      rw [evBackward_store, if_neg he]
      simp only
      by_cases hc : b = iB x w ∧ inBlock g.bs (iS x g w) (iT x g iter w) (x.bd (iB x w)) s t ∧
            s < (x.bd (iB x w)).se ∧ t + negOff x.md ≤ (x.bd (iB x w)).te
      · rw [if_pos hc, if_pos hc]
        obtain ⟨rfl, ⟨c1, c2, c3, c4, c5, c6⟩, c7, c8⟩ := hc
        rw [hbuf _ _ (by omega) (by omega), gctx_x hE st0.ag hsb htb (by omega) (by omega)]
        congr 1 <;> omega
      · rw [if_neg hc, if_neg hc]
    have hyg : ∀ b s t, (evBackward x p ow g iter sc (.store w) st).yg b s t =
        if b = iB x w ∧ inBlock g.bs (iS x g w) (iT x g iter w) (x.bd (iB x w)) s t ∧
            t < (x.bd (iB x w)).te then gy x st0.ag b s t else st.yg b s t := by
      intro b s t
      rw [evBackward_store, if_neg he]
      simp only
      by_cases hc : b = iB x w ∧ inBlock g.bs (iS x g w) (iT x g iter w) (x.bd (iB x w)) s t ∧
            t < (x.bd (iB x w)).te
      · rw [if_pos hc, if_pos hc]
        obtain ⟨rfl, ⟨c1, c2, c3, c4, c5, c6⟩, c7⟩ := hc
        rw [hbuf _ _ (by omega) (by omega), gctx_y hE st0.ag hsb htb (by omega) (by omega)]
        congr 1 <;> omega
      · rw [if_neg hc, if_neg hc]
    have keep : ∀ b s t, Right x st0.ag b s t st →
        Right x st0.ag b s t (evBackward x p ow g iter sc (.store w) st) := by
      intro b s t hr
      refine ⟨?_, fun hd => ?_, fun hd => ?_⟩
      · rw [hpg]; split
        · rfl
        · exact hr.1
      · rw [hxg]; split
        · rfl
        · exact hr.2.1 hd
      · rw [hyg]; split
        · rfl
        · exact hr.2.2 hd
    refine ⟨?_, ?_, ?_, ?_, ?_, ?_⟩
    · intro b hb s t hr hd
      exact keep _ _ _ (h.later b hb s t hr hd)
    · intro w' hw' h1 h2 a c ha hc
      have hw'' : Ev.load w' ∈ l := by
        rcases List.mem_append.1 hw' with hw' | hw'
        · exact hw'
        · simp at hw'
      have := h.loaded w' hw'' h1 h2 a c ha hc
      rw [evBackward_store, if_neg he]; exact this
    · intro w' hw' s t h1 h2 h3 h4
      rcases List.mem_append.1 hw' with hw' | hw'
      · exact keep _ _ _ (h.stored w' hw' s t h1 h2 h3 h4)
      · simp only [List.mem_singleton, Ev.store.injEq] at hw'
        subst hw'
        have hin : inBlock g.bs (iS x g w') (iT x g iter w') (x.bd (iB x w')) s t :=
          ⟨h1, by omega, h3, by omega, by omega, by omega⟩
        refine ⟨?_, fun hd => ?_, fun hd => ?_⟩
        · rw [hpg, if_pos ⟨rfl, hin⟩]
        · rw [hxg, if_pos ⟨rfl, hin, hd.2.2.1, hd.2.2.2⟩]
        · rw [hyg, if_pos ⟨rfl, hin, hd.2.2⟩]
    · intro b
      rw [evBackward_store, if_neg he]
      simp only
      by_cases hc : b = iB x w ∧ iS x g w = (x.bd (iB x w)).sb ∧
            iT x g iter w = (x.bd (iB x w)).tb ∧ ow = true
      · rw [if_pos hc]
        obtain ⟨rfl, c1, c2, _⟩ := hc
        rw [hbuf 0 0 (by omega) (by omega)]
        have h1 := hE.ses
        have h2 := hE.tes
        simp only [gctx]
        rw [if_pos (by omega), Nat.zero_add, Nat.zero_add, c1, c2]
        simp only [gp, GT]
        rw [alpha_start, beta_begin _ _ _ _ _ h1 h2]
        have := hE.total
        field_simp
      · rw [if_neg hc]; exact h.ag b
    · intro b s t hd
      rw [hxg, if_neg]
      · exact h.outsideX b s t hd
      · rintro ⟨e, ⟨c1, c2, c3, c4, c5, c6⟩, c7, c8⟩
        subst e
        exact hd ⟨hi.b, ⟨by omega, by omega, by omega, by omega⟩, c7, c8⟩
    · intro b s t hd
      rw [hyg, if_neg]
      · exact h.outsideY b s t hd
      · rintro ⟨e, ⟨c1, c2, c3, c4, c5, c6⟩, c7⟩
        subst e
        exact hd ⟨hi.b, ⟨by omega, by omega, by omega, by omega⟩, c7⟩

theorem GInv.events {x : Input W} {p : Nat → Nat → Nat → W} (hp : ∀ b < x.B, Elem x p b) {ow : Bool}
    {g : Grid} (hg : g.Ok) {iter : Nat} {sc : Sched W}
    {st0 : BState W} (hv : sc.Valid g (x.B * numBlocks g.bs x.S iter)) (r : List Ev) :
    ∀ (l : List Ev) (st : BState W), sc.evs = l ++ r → GInv x g st0 iter l st →
      GInv x g st0 iter sc.evs (r.foldl (fun st e => evBackward x p ow g iter sc e st) st) := by
  induction r with
  | nil => intro l st h hi; rw [h, List.append_nil]; exact hi
  | cons e r ih =>
    intro l st h hinv
    rw [List.foldl_cons]
    apply ih (l ++ [e]) _ (by rw [h]; simp)
    have hmem : e ∈ sc.evs := by rw [h]; simp
    cases e with
    | load w => exact hinv.load hp hg (item_of_lt x g iter ((hv.loads w).1 hmem)) hv
    | store w =>
      exact hinv.store hp (item_of_lt x g iter ((hv.stores w).1 hmem)) (hv.order w l r h)

/-- The state when the launches from `n` on have been done. -/
structure GLaunch (x : Input W) (g : Grid) (st0 : BState W) (n : Nat) (st : BState W) : Prop where
  later : ∀ b < x.B, ∀ s t, Rect (x.bd b) s t → n ≤ diag g.bs (x.bd b) s t →
    Right x st0.ag b s t st
  ag : ∀ b, st.ag b = st0.ag b
  outsideX : ∀ b s t, ¬ xDom x b s t → st.xg b s t = st0.xg b s t
  outsideY : ∀ b s t, ¬ yDom x b s t → st.yg b s t = st0.yg b s t

theorem runBackward_inv {x : Input W} (hx : x.Ok) {p : Nat → Nat → Nat → W}
    (hp : ∀ b < x.B, Elem x p b) {ow : Bool} {g : Grid} (hg : g.Ok) (sc : Nat → Sched W)
    (hv : ∀ iter, (sc iter).Valid g (x.B * numBlocks g.bs x.S iter)) (st0 : BState W) (n : Nat) :
    ∀ st, GLaunch x g st0 n st → GLaunch x g st0 0 ((List.range n).reverse.foldl
      (fun st iter => launchBackward x p ow g iter (sc iter) st) st) := by
  induction n with
  | zero => intro st h; exact h
  | succ n ih =>
    intro st h
    rw [List.range_succ, List.reverse_append, List.reverse_singleton, List.foldl_append]
    apply ih
    have he : GInv x g st0 n (sc n).evs (launchBackward x p ow g n (sc n) st) := by
      apply GInv.events hp hg (hv n) (sc n).evs [] st rfl
      exact ⟨fun b hb s t hr hd => h.later b hb s t hr hd, by simp, by simp, h.ag, h.outsideX,
        h.outsideY⟩
    simp only [List.foldl_cons, List.foldl_nil]
    refine ⟨?_, he.ag, he.outsideX, he.outsideY⟩
    intro b hb s t hr hd
    by_cases hlt : n < diag g.bs (x.bd b) s t
    · exact he.later b hb s t hr hlt
    · have hd' : diag g.bs (x.bd b) s t = n := by omega
      obtain ⟨w, hw, e, c1, c2, c3, c4⟩ := exists_item hx hg hb hr
      rw [hd'] at hw c3 c4
      subst e
      exact he.stored w (((hv n).stores w).2 hw) s t c1 c2 c3 c4

end Verif.Rnnt.Cuda
