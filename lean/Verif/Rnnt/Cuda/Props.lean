import Verif.Rnnt.Cuda.Backward
import Verif.Rnnt.Cuda.Barrier
import Verif.Rnnt.MutualInfoProps

/-!
# Properties of `mutual_information_recursion` on the GPU: C108, C109, C110

The specification is again `alignments` / `weight` / `TakesAt` of `Verif.Rnnt.Alignments`.
A schedule says in which order thread blocks load and store and in which order threads run.
-/

namespace Verif.Rnnt.Cuda
open Verif.Rnnt

/-- One thread block after the other, threads in order of their numbers. -/
def seqSched {W : Type} (g : Grid) (n : Nat) (junk : W) : Sched W where
  evs := (List.range n).flatMap fun w => [Ev.load w, Ev.store w]
  ord := fun _ _ => List.range g.threads
  junk := fun _ _ _ => junk

theorem seqSched_valid {W : Type} (g : Grid) (n : Nat) (junk : W) :
    (seqSched g n junk).Valid g n := by
  have split : ∀ n w l r, (List.range n).flatMap (fun w => [Ev.load w, Ev.store w]) =
      l ++ Ev.store w :: r → Ev.load w ∈ l := by
    intro n
    induction n with
    | zero => intro w l r h; simp at h
    | succ n ih =>
      intro w l r h
      rw [List.range_succ, List.flatMap_append] at h
      simp only [List.flatMap_cons, List.flatMap_nil, List.append_nil] at h
      rcases List.append_eq_append_iff.1 h with ⟨a, h1, h2⟩ | ⟨a, h1, h2⟩
      · rcases a with _ | ⟨e, a⟩
        · simp at h2
        · rcases a with _ | ⟨e', a⟩
          · simp at h2
            rw [h1, ← h2.1, h2.2.1]; simp
          · simp at h2
      · rcases a with _ | ⟨e, a⟩
        · simp at h2
        · simp only [List.cons_append, List.cons.injEq] at h2
          rw [← h2.1] at h1
          exact ih w l a h1
  refine ⟨?_, ?_, ?_, split n, fun _ _ => List.Perm.refl _⟩
  · simp only [seqSched]
    rw [List.nodup_flatMap]
    refine ⟨by intro w _; simp, ?_⟩
    refine List.Pairwise.imp ?_ List.nodup_range
    intro a b hab
    simp [Function.onFun, List.Disjoint, hab]
  · intro w; simp [seqSched]
  · intro w; simp [seqSched]

/-- C108.  Whatever the order in which the thread blocks of each launch load and store, in which
order the threads run, and what was in memory before: for each batch element the table of the
GPU at `(s, t)` is the sum over all alignments to `(s, t)` of the product of their px / py
entries, which is what the CPU computes; the returned score is the sum over all complete
alignments; entries outside of the rectangle and of other batch elements are not written. -/
theorem gpu_forward_total {W : Type} [CommSemiring W] (x : Input W) (hx : x.Ok) (g : Grid)
    (hg : g.Ok) (sc : Nat → Sched W)
    (hv : ∀ iter, (sc iter).Valid g (x.B * numBlocks g.bs x.S iter)) (st : FState W) :
    (∀ b < x.B, ∀ s t, (x.bd b).sb ≤ s → s ≤ (x.bd b).se → (x.bd b).tb ≤ t → t ≤ (x.bd b).te →
      (runForward x g sc st).p b s t =
        ∑ l ∈ alignments x.md (s - (x.bd b).sb) (t - (x.bd b).tb),
          weight x.md (x.px b) (x.py b) (x.bd b).sb (x.bd b).tb l) ∧
    (∀ b < x.B, (runForward x g sc st).ans b =
      ∑ l ∈ alignments x.md ((x.bd b).se - (x.bd b).sb) ((x.bd b).te - (x.bd b).tb),
        weight x.md (x.px b) (x.py b) (x.bd b).sb (x.bd b).tb l) ∧
    (∀ b s t, (x.B ≤ b ∨ s < (x.bd b).sb ∨ (x.bd b).se < s ∨ t < (x.bd b).tb ∨ (x.bd b).te < t) →
      (runForward x g sc st).p b s t = st.p b s t) ∧
    (∀ b s t, b < x.B → (x.bd b).sb ≤ s → s ≤ (x.bd b).se → (x.bd b).tb ≤ t → t ≤ (x.bd b).te →
      ∀ p0, (runForward x g sc st).p b s t =
        miForward x.md (x.px b) (x.py b) (x.bd b).sb (x.bd b).tb (x.bd b).se (x.bd b).te p0 s t) := by
  have h := runForward_inv hx hg sc hv st (numIters g.bs x.S x.T)
  have hp : ∀ b < x.B, ∀ s t, (x.bd b).sb ≤ s → s ≤ (x.bd b).se → (x.bd b).tb ≤ t →
      t ≤ (x.bd b).te → (runForward x g sc st).p b s t =
        ∑ l ∈ alignments x.md (s - (x.bd b).sb) (t - (x.bd b).tb),
          weight x.md (x.px b) (x.py b) (x.bd b).sb (x.bd b).tb l := by
    intro b hb s t h1 h2 h3 h4
    exact h.earlier b hb s t ⟨h1, h2, h3, h4⟩ (diag_lt_numIters hx hg hb ⟨h1, h2, h3, h4⟩)
  refine ⟨hp, ?_, ?_, ?_⟩
  · intro b hb
    obtain ⟨h1, h2, h3, h4⟩ := hx b hb
    exact h.earlierAns b hb
      (diag_lt_numIters hx hg hb ⟨h1, Nat.le_refl _, h3, Nat.le_refl _⟩)
  · intro b s t hout
    apply h.outside
    rintro ⟨h1, h2, h3, h4, h5⟩
    omega
  · intro b s t hb h1 h2 h3 h4 p0
    obtain ⟨k1, k2, k3, k4⟩ := hx b hb
    rw [hp b hb s t h1 h2 h3 h4, miForward_total x.md (x.px b) (x.py b) k1 k3 p0 h1 h2 h3 h4]

/-- The sizes in the code (lines 700, 772). -/
example : Grid.Ok ⟨32, 128⟩ := ⟨by decide, by decide, by decide⟩

/-- One batch element with two symbols and two frames, all entries 1, another that is empty,
blocks of one element so that there are five launches; the memory is full of nines. -/
example :
    let x : Input Nat := ⟨2, 2, 2, false, fun _ _ _ => 1, fun _ _ _ => 1,
      fun b => if b = 0 then ⟨0, 0, 2, 2⟩ else ⟨1, 1, 1, 1⟩⟩
    let g : Grid := ⟨1, 66⟩
    let st := runForward x g (fun iter => seqSched g (x.B * numBlocks g.bs x.S iter) 9)
      ⟨fun _ _ _ => 9, fun _ => 9, fun _ _ _ => 9⟩
    x.Ok ∧ g.Ok ∧ st.ans 0 = 6 ∧ st.ans 1 = 1 ∧ st.p 0 1 1 = 2 ∧ st.p 1 0 0 = 9 := by
  intro x g st
  have hx : x.Ok := by
    intro b hb
    have hb' : b < 2 := hb
    rcases b with _ | _ | b
    · decide
    · decide
    · omega
  have hg : g.Ok := ⟨by decide, by decide, by decide⟩
  obtain ⟨h1, h2, h3, _⟩ := gpu_forward_total x hx g hg
    (fun iter => seqSched g (x.B * numBlocks g.bs x.S iter) 9)
    (fun iter => seqSched_valid _ _ _) ⟨fun _ _ _ => 9, fun _ => 9, fun _ _ _ => 9⟩
  refine ⟨hx, hg, ?_, ?_, ?_, ?_⟩
  · rw [h2 0 (by decide)]; decide +kernel
  · rw [h2 1 (by decide)]; decide +kernel
  · rw [h1 0 (by decide) 1 1 (by decide) (by decide) (by decide) (by decide)]; decide +kernel
  · exact h3 1 0 0 (by decide)

section gradients
variable {W : Type} [Field W] [LinearOrder W] [IsStrictOrderedRing W]

theorem elem_of_forward (x : Input W) (hx : x.Ok) (hpx : ∀ b s t, 0 ≤ x.px b s t)
    (hpy : ∀ b s t, 0 ≤ x.py b s t) (g : Grid)
    (hg : g.Ok) (sc : Nat → Sched W)
    (hv : ∀ iter, (sc iter).Valid g (x.B * numBlocks g.bs x.S iter)) (st : FState W) {b : Nat}
    (hb : b < x.B)
    (hA : ∑ l ∈ alignments x.md ((x.bd b).se - (x.bd b).sb) ((x.bd b).te - (x.bd b).tb),
        weight x.md (x.px b) (x.py b) (x.bd b).sb (x.bd b).tb l ≠ 0) :
    Elem x (runForward x g sc st).p b := by
  obtain ⟨k1, k2, k3, k4⟩ := hx b hb
  have nn := alpha_nonneg x.md (x.px b) (x.py b) (hpx b) (hpy b) (x.bd b).sb (x.bd b).tb
  refine ⟨k1, k3, ?_, hA, ?_, ?_⟩
  · intro s t hr
    exact (gpu_forward_total x hx g hg sc hv st).1 b hb s t hr.1 hr.2.1 hr.2.2.1 hr.2.2.2
  · intro s t hr hr' h0
    obtain ⟨r1, r2, r3, r4⟩ := hr
    have e1 : 0 ≤ alpha x.md (x.px b) (x.py b) (x.bd b).sb (x.bd b).tb s t * x.px b s t :=
      mul_nonneg (nn _ _) (hpx _ _ _)
    by_cases ht : (x.bd b).tb < t + negOff x.md
    · have hin := alpha_inner x.md (x.px b) (x.py b) (x.bd b).sb (x.bd b).tb
        (s := s + 1) (t := t + negOff x.md) (by omega) ht
      have e2 : 0 ≤ alpha x.md (x.px b) (x.py b) (x.bd b).sb (x.bd b).tb (s + 1)
          (t + negOff x.md - 1) * x.py b (s + 1) (t + negOff x.md - 1) :=
        mul_nonneg (nn _ _) (hpy _ _ _)
      have e3 : (if x.md then t + negOff x.md - 1 else t + negOff x.md) = t := by
        simp only [negOff]; split <;> simp_all
      rw [e3, Nat.add_sub_cancel] at hin
      simp only [tab] at h0 ⊢
      linarith
    · have hmd : x.md = false := by
        cases h : x.md with
        | false => rfl
        | true => simp only [negOff, h, if_true] at ht; omega
      have ht' : t = (x.bd b).tb := by omega
      have hin := alpha_col x.md (x.px b) (x.py b) (x.bd b).sb (x.bd b).tb (s := s + 1) (by omega)
      simp only [hmd, Bool.false_eq_true, if_false, negOff, Nat.add_zero, tab] at h0 hin ⊢
      rw [ht'] at h0 ⊢
      rw [h0] at hin
      simpa using hin.symm
  · intro s t hr hr' h0
    obtain ⟨r1, r2, r3, r4⟩ := hr
    simp only [tab] at h0 ⊢
    have e1 : 0 ≤ alpha x.md (x.px b) (x.py b) (x.bd b).sb (x.bd b).tb s t * x.py b s t :=
      mul_nonneg (nn _ _) (hpy _ _ _)
    by_cases hs : (x.bd b).sb < s
    · have hin := alpha_inner x.md (x.px b) (x.py b) (x.bd b).sb (x.bd b).tb
        (s := s) (t := t + 1) hs (by omega)
      have e2 := mul_nonneg (nn (s - 1) (if x.md then t + 1 - 1 else t + 1))
        (hpx b (s - 1) (if x.md then t + 1 - 1 else t + 1))
      rw [Nat.add_sub_cancel] at hin e2
      linarith
    · have hs' : s = (x.bd b).sb := by omega
      have hin := alpha_row x.md (x.px b) (x.py b) (x.bd b).sb (x.bd b).tb (t := t + 1) (by omega)
      rw [hs'] at h0 ⊢
      rw [h0] at hin
      simpa using hin.symm

open Classical in
/-- C109.  With the table of the forward pass, non-negative entries and non-zero totals: in every
schedule, the GPU's gradient for `px[b][s][t]` is `ans_grad[b]` times the share, in the total, of
the alignments that take an X step at `(s, t)`, and likewise for `py`; these are the CPU's
gradients.  This holds at every index of the tensors, if they were zeroed before (as they are if
boundaries are given) or all boundaries are `0, 0, S, T` (then they need not be).  `ans_grad` is
overwritten with itself. -/
theorem gpu_backward_occupation (x : Input W) (hx : x.Ok) (hpx : ∀ b s t, 0 ≤ x.px b s t)
    (hpy : ∀ b s t, 0 ≤ x.py b s t) (g : Grid) (hg : g.Ok) (sc sc' : Nat → Sched W)
    (hv : ∀ iter, (sc iter).Valid g (x.B * numBlocks g.bs x.S iter))
    (hv' : ∀ iter, (sc' iter).Valid g (x.B * numBlocks g.bs x.S iter))
    (hA : ∀ b < x.B,
      ∑ l ∈ alignments x.md ((x.bd b).se - (x.bd b).sb) ((x.bd b).te - (x.bd b).tb),
        weight x.md (x.px b) (x.py b) (x.bd b).sb (x.bd b).tb l ≠ 0)
    (ow : Bool) (st : FState W) (st' : BState W)
    (h0 : ((∀ b s t, st'.xg b s t = 0) ∧ (∀ b s t, st'.yg b s t = 0)) ∨
      ∀ b < x.B, x.bd b = ⟨0, 0, x.S, x.T⟩) :
    let grads := runBackward x (runForward x g sc st).p ow g sc' st'
    let cpu := fun b => miBackward x.md (x.px b)
      (miForward x.md (x.px b) (x.py b) (x.bd b).sb (x.bd b).tb (x.bd b).se (x.bd b).te
        (fun _ _ => 0)) (x.bd b).sb (x.bd b).tb (x.bd b).se (x.bd b).te (st'.ag b)
    let all := fun b => alignments x.md ((x.bd b).se - (x.bd b).sb) ((x.bd b).te - (x.bd b).tb)
    let w := fun b => weight x.md (x.px b) (x.py b) (x.bd b).sb (x.bd b).tb
    (∀ b < x.B, ∀ s < x.S, ∀ t, t + negOff x.md ≤ x.T →
      grads.xg b s t = (cpu b).px s t ∧
      grads.xg b s t = st'.ag b *
        (∑ l ∈ all b with TakesAt x.md (x.bd b).sb (x.bd b).tb .X s t l, w b l) /
          ∑ l ∈ all b, w b l) ∧
    (∀ b < x.B, ∀ s ≤ x.S, ∀ t < x.T,
      grads.yg b s t = (cpu b).py s t ∧
      grads.yg b s t = st'.ag b *
        (∑ l ∈ all b with TakesAt x.md (x.bd b).sb (x.bd b).tb .Y s t l, w b l) /
          ∑ l ∈ all b, w b l) ∧
    ∀ b, grads.ag b = st'.ag b := by
  intro grads cpu all w
  have hE : ∀ b < x.B, Elem x (runForward x g sc st).p b := fun b hb =>
    elem_of_forward x hx hpx hpy g hg sc hv st hb (hA b hb)
  have hL : GLaunch x g st' 0 grads := by
    apply runBackward_inv hx hE hg sc' hv' st'
    refine ⟨?_, fun _ => rfl, fun _ _ _ _ => rfl, fun _ _ _ _ => rfl⟩
    intro b hb s t hr hd
    have := diag_lt_numIters hx hg hb hr
    omega
  have occ := fun b (hb : b < x.B) => miBackward_occupation x.md (x.px b) (x.py b) (hpx b) (hpy b)
    (hx b hb).1 (hx b hb).2.2.1 (fun _ _ => 0) (st'.ag b) (hA b hb)
  -- the CPU's gradients are `XT` and `YT` in the rectangle
  have cpuXY : ∀ b < x.B, ∀ s t, Rect (x.bd b) s t →
      (cpu b).px s t = gx x st'.ag b s t ∧ (cpu b).py s t = gy x st'.ag b s t := by
    intro b hb s t hr
    obtain ⟨k1, k2, k3, k4⟩ := hx b hb
    have hz : ∀ s t, (x.bd b).sb < s → s ≤ (x.bd b).se → (x.bd b).tb < t → t ≤ (x.bd b).te →
        alpha x.md (x.px b) (x.py b) (x.bd b).sb (x.bd b).tb s t = 0 →
        alpha x.md (x.px b) (x.py b) (x.bd b).sb (x.bd b).tb (s - 1) (if x.md then t - 1 else t) *
          x.px b (s - 1) (if x.md then t - 1 else t) = 0 := by
      intro s t h1 h2 h3 h4 h0
      have e : (if x.md then t - 1 else t) + negOff x.md = t := by
        simp only [negOff]; split <;> omega
      have e' : s - 1 + 1 = s := by omega
      apply (hE b hb).zx
      · refine ⟨by omega, by omega, ?_, ?_⟩ <;> split <;> omega
      · refine ⟨by omega, by omega, by omega, by omega⟩
      · rw [e, e']; exact h0
    have := @miBackward_spec W _ _ x.md (x.px b) (x.py b) (x.bd b).sb (x.bd b).tb (x.bd b).se
      (x.bd b).te (st'.ag b) (hA b hb)
      (miForward x.md (x.px b) (x.py b) (x.bd b).sb (x.bd b).tb (x.bd b).se (x.bd b).te
        (fun _ _ => 0)) k1 k3
      (fun s t h1 h2 h3 h4 => miForward_spec x.md (x.px b) (x.py b) _ _ k1 k3 _ h1 h2 h3 h4) hz s t
      hr.1 hr.2.1 hr.2.2.1 hr.2.2.2
    exact this.2
  have hX : ∀ b < x.B, ∀ s < x.S, ∀ t, t + negOff x.md ≤ x.T →
      grads.xg b s t = (cpu b).px s t := by
    intro b hb s hs t ht
    obtain ⟨k1, k2, k3, k4⟩ := hx b hb
    by_cases hd : xDom x b s t
    · rw [(cpuXY b hb s t hd.2.1).1]
      exact (hL.later b hb s t hd.2.1 (Nat.zero_le _)).2.1 hd
    · rw [hL.outsideX b s t hd]
      have hz : st'.xg b s t = 0 := by
        rcases h0 with h0 | h0
        · exact h0.1 b s t
        · exfalso
          apply hd
          have := h0 b hb
          refine ⟨hb, ⟨?_, ?_, ?_, ?_⟩, ?_, ?_⟩ <;> rw [this] <;> simp only <;> omega
      rw [hz]
      by_cases hr : Rect (x.bd b) s t
      · rw [(cpuXY b hb s t hr).1]
        have hn : ¬ (s < (x.bd b).se ∧ t + negOff x.md ≤ (x.bd b).te) :=
          fun hh => hd ⟨hb, hr, hh⟩
        have : beta x.md (x.px b) (x.py b) (x.bd b).se (x.bd b).te (s + 1)
            (t + negOff x.md) = 0 := if_neg (by omega)
        simp only [gx, XT, frames_eq, this]
        simp
      · refine (miBackward_untouched x.md (x.px b) _ (st'.ag b) k1 k3 ?_).1.symm
        apply Classical.byContradiction
        intro hn
        exact hr ⟨by omega, by omega, by omega, by omega⟩
  have hY : ∀ b < x.B, ∀ s ≤ x.S, ∀ t < x.T, grads.yg b s t = (cpu b).py s t := by
    intro b hb s hs t ht
    obtain ⟨k1, k2, k3, k4⟩ := hx b hb
    by_cases hd : yDom x b s t
    · rw [(cpuXY b hb s t hd.2.1).2]
      exact (hL.later b hb s t hd.2.1 (Nat.zero_le _)).2.2 hd
    · rw [hL.outsideY b s t hd]
      have hz : st'.yg b s t = 0 := by
        rcases h0 with h0 | h0
        · exact h0.2 b s t
        · exfalso
          apply hd
          have := h0 b hb
          refine ⟨hb, ⟨?_, ?_, ?_, ?_⟩, ?_⟩ <;> rw [this] <;> simp only <;> omega
      rw [hz]
      by_cases hr : Rect (x.bd b) s t
      · rw [(cpuXY b hb s t hr).2]
        have hn : ¬ t < (x.bd b).te := fun hh => hd ⟨hb, hr, hh⟩
        have : beta x.md (x.px b) (x.py b) (x.bd b).se (x.bd b).te s (t + 1) = 0 :=
          if_neg (by omega)
        simp only [gy, YT, this]
        simp
      · refine (miBackward_untouched x.md (x.px b) _ (st'.ag b) k1 k3 ?_).2.symm
        apply Classical.byContradiction
        intro hn
        exact hr ⟨by omega, by omega, by omega, by omega⟩
  refine ⟨fun b hb s hs t ht => ⟨hX b hb s hs t ht, ?_⟩,
    fun b hb s hs t ht => ⟨hY b hb s hs t ht, ?_⟩, hL.ag⟩
  · rw [hX b hb s hs t ht]
    exact (occ b hb).1 s t
  · rw [hY b hb s hs t ht]
    exact (occ b hb).2.1 s t

end gradients

/-- Two symbols, two frames, all entries 1, ans_grad 12, blocks of one element; the gradients are
not zeroed. -/
example :
    let x : Input ℚ := ⟨1, 2, 2, false, fun _ _ _ => 1, fun _ _ _ => 1, fun _ => ⟨0, 0, 2, 2⟩⟩
    let g : Grid := ⟨1, 66⟩
    let sc := fun iter => seqSched g (x.B * numBlocks g.bs x.S iter) (9 : ℚ)
    let st := runForward x g sc ⟨fun _ _ _ => 9, fun _ => 9, fun _ _ _ => 9⟩
    let gr := runBackward x st.p true g sc
      ⟨fun _ _ _ => 9, fun _ _ _ => 9, fun _ _ _ => 9, fun _ => 12, fun _ _ _ => 9⟩
    gr.xg 0 0 0 = 6 ∧ gr.ag 0 = 12 := by
  intro x g sc st gr
  have hx : x.Ok := by intro b _; exact ⟨Nat.zero_le _, Nat.le_refl _, Nat.zero_le _, Nat.le_refl _⟩
  have hg : g.Ok := ⟨by decide, by decide, by decide⟩
  have h := gpu_backward_occupation x hx (by intros; exact zero_le_one)
    (by intros; exact zero_le_one) g hg sc sc (fun _ => seqSched_valid _ _ _)
    (fun _ => seqSched_valid _ _ _) (by
      intro b hb
      have : b = 0 := Nat.lt_one_iff.1 hb
      subst this
      decide +kernel) true
    ⟨fun _ _ _ => 9, fun _ => 9, fun _ _ _ => 9⟩
    ⟨fun _ _ _ => 9, fun _ _ _ => 9, fun _ _ _ => 9, fun _ => 12, fun _ _ _ => 9⟩
    (Or.inr fun _ _ => rfl)
  refine ⟨?_, h.2.2 0⟩
  refine (h.1 0 (by decide) 0 (by decide) 0 (by decide)).1.trans ?_
  decide +kernel

/-- C109, disagreement.  If the total of a batch element is zero (its score is minus infinity) the
GPU and the CPU return different gradients: with all entries zero the CPU's gradient for
`py[1][0]` is `ans_grad` (`miBackward_zero_total`), the GPU's is zero. -/
theorem gpu_backward_zero_total :
    let x : Input ℚ := ⟨1, 1, 1, false, fun _ _ _ => 0, fun _ _ _ => 0, fun _ => ⟨0, 0, 1, 1⟩⟩
    let g : Grid := ⟨2, 68⟩
    let sc := fun iter => seqSched g (x.B * numBlocks g.bs x.S iter) (9 : ℚ)
    let st := runForward x g sc ⟨fun _ _ _ => 9, fun _ => 9, fun _ _ _ => 9⟩
    let gr := runBackward x st.p true g sc
      ⟨fun _ _ _ => 9, fun _ _ _ => 9, fun _ _ _ => 9, fun _ => 1, fun _ _ _ => 9⟩
    st.ans 0 = 0 ∧ gr.yg 0 1 0 = 0 ∧ gr.ag 0 = 0 ∧
      (miBackward false (x.px 0) (miForward false (x.px 0) (x.py 0) 0 0 1 1 (fun _ _ => 0))
        0 0 1 1 1).py 1 0 = 1 := by
  decide +kernel

/-! ## `boundary_buf` -/

/-- C110.  In the forward kernel every read of `boundary_buf` that any thread makes for an item
returns the row of `boundary` of that item, in every order of execution, for any number of items
per thread block and whichever of them are empty. -/
theorem forward_boundary {V : Type} (c : Block V) (hg : c.guarded = true) (hn : 4 ≤ c.n)
    (junk : Nat → V) (st : Shared V) (hr : c.Reach ⟨fun _ => 0, junk, []⟩ st) :
    ∀ r ∈ st.reads, r.2.2.2 = c.row r.2.1 r.2.2.1 := by
  refine (hr.inv c ⟨?_, Or.inl hg, ?_, by simp⟩ hn (Or.inl hg)).reads
  · intro i _ i' _ q _ h; exact absurd h (Nat.not_lt_zero _)
  · intro j _ k h; simp only at h; omega

/-- C110.  In the backward kernel, which lacks the first barrier, this holds if no item of the thread
block is empty and thread 0 has written `0, 0, S, T` before any other thread enters the loop.
What is missing: see the next two theorems. -/
theorem backward_boundary_partial {V : Type} (c : Block V) (he : ∀ k, c.empty k = false) (hn : 4 ≤ c.n)
    (junk : Nat → V) (st : Shared V) (hr : c.Reach ⟨fun _ => 4, junk, []⟩ st) :
    ∀ r ∈ st.reads, r.2.2.2 = c.row r.2.1 r.2.2.1 := by
  refine (hr.inv c ⟨?_, Or.inr fun _ _ => Nat.le_refl _, ?_, by simp⟩ hn (Or.inr he)).reads
  · intro i _ i' _ q hq h
    exact Nat.le_of_lt h
  · intro j _ k h; simp only at h; omega

/-- Threads run one after the other as listed, if they can. -/
def Block.run {V : Type} (c : Block V) (l : List Nat) (st : Shared V) : Shared V :=
  l.foldl c.exec st

/-- Whether each thread of the list can run when it is its turn. -/
def Block.canRun {V : Type} (c : Block V) : List Nat → Shared V → Bool
  | [], _ => true
  | i :: l, st => decide (i < c.n) &&
      (c.ins (st.pc i) != .sync || (List.range c.n).all fun j => st.pc i ≤ st.pc j) &&
      Block.canRun c l (c.exec st i)

theorem Block.reach_run {V : Type} (c : Block V) (st0 : Shared V) (l : List Nat) :
    ∀ st, c.Reach st0 st → c.canRun l st = true → c.Reach st0 (c.run l st) := by
  induction l with
  | nil => intro st h _; exact h
  | cons i l ih =>
    intro st h hc
    simp only [Block.canRun, Bool.and_eq_true, decide_eq_true_eq, Bool.or_eq_true, bne_iff_ne,
      List.all_eq_true, List.mem_range] at hc
    apply ih _ (.step st i h ⟨hc.1.1, fun hs j hj => ?_⟩) hc.2
    rcases hc.1.2 with hne | hall
    · exact absurd hs hne
    · exact hall j hj

/-- Four threads, row 5, 6, 7, 8 for the first item and 15, 16, 17, 18 for the second. -/
def raceBlock (guarded : Bool) : Block Nat :=
  ⟨4, guarded, fun k j => 10 * k + j + 5, fun k => k == 0, fun j => if j < 2 then 0 else 3⟩

/-- The forward kernel is not stuck: all threads read both rows. -/
example : (raceBlock true).canRun
      ((List.replicate 20 [0, 1, 2, 3]).flatten) ⟨fun _ => 0, fun _ => 99, []⟩ = true ∧
    ((raceBlock true).run ((List.replicate 20 [0, 1, 2, 3]).flatten)
      ⟨fun _ => 0, fun _ => 99, []⟩).reads.length = 32 := by
  decide +kernel

/-- C110, disagreement.  In the backward kernel a thread can read the number that thread 0 wrote
before the loop in place of the boundary of the first item: threads 1 to 3 write the row of the
item, then thread 0 writes `0, 0, S, T`. -/
theorem backward_init_race :
    ∃ st, (raceBlock false).Reach ⟨fun _ => 0, fun _ => 99, []⟩ st ∧
      ∃ r ∈ st.reads, r.2.1 = 0 ∧ r.2.2.1 = 1 ∧ r.2.2.2 = 0 ∧ (raceBlock false).row 0 1 = 6 := by
  refine ⟨_, Block.reach_run _ _ ([1, 1, 1, 1, 1, 1, 2, 2, 2, 2, 2, 2, 3, 3, 3, 3, 3, 3] ++
    [0, 0, 0, 0, 0, 0, 0, 0, 0]) _ .start (by decide +kernel), ?_⟩
  exact ⟨(0, 0, 1, 0), by decide +kernel, rfl, rfl, rfl, rfl⟩

/-- C110, disagreement.  After an empty item, a thread of the backward kernel can read a boundary of
the next item in place of its own: thread 0 reads its row, does `continue`, and writes the
beginning of the next row before thread 3 has read the first. -/
theorem backward_continue_race :
    ∃ st, (raceBlock false).Reach ⟨fun _ => 4, fun _ => 99, []⟩ st ∧
      ∃ r ∈ st.reads, r.1 = 3 ∧ r.2.1 = 0 ∧ r.2.2.1 = 0 ∧ r.2.2.2 = 15 ∧
        (raceBlock false).row 0 0 = 5 := by
  refine ⟨_, Block.reach_run _ _ ([0, 0, 1, 1, 2, 2, 3, 3] ++
    [0, 0, 0, 0, 0, 0, 0, 0] ++ [3, 3]) _ .start (by decide +kernel), ?_⟩
  exact ⟨(3, 0, 0, 15), by decide +kernel, rfl, rfl, rfl, rfl, rfl⟩

end Verif.Rnnt.Cuda
