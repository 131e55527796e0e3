import Verif.Fsa.Loss.CtcSum

/-!
# C95, C96: `DenseFsaVec` and `ctc_loss`

`F` are the decoding graphs (the arcs of each state) and `B` the sequences.
-/

namespace Verif.Fsa.Loss
open Verif.Ragged Verif.Util Verif.Fsa.Dn Verif.Fsa.Sco Verif.Fsa.CtcB

/-! ## `DenseFsaVec` -/

section
variable {S : Type} [Zero S] [Bot S]

/-- C95: for a list of correct segments that is not empty, `DenseFsaVec` holds the frames of each segment, in
the order of the segments: the scores of a frame follow a score of minus infinity for the label -1, and after
the last frame there is a frame on which -1 is the only label.  The durations are the numbers of frames,
without the additional one. -/
theorem dense_fsa_vec_holds_segments (T C : Nat) (lp : List (List (List S))) (hlp : Shaped T C lp)
    (segs : List Seg) (allow : Nat) (hne : segs ≠ []) (hs : ∀ s ∈ segs, SegOk lp.length T allow s) :
    ∃ b, denseFsaVec T C lp segs allow = some (b, segs.map (fun s => (segFrames lp s).length)) ∧
      b.cols = C + 1 ∧ Holds (segs.map (fun s => closed C (segFrames lp s))) b :=
  denseFsaVec_eq T C lp hlp segs allow hne hs

/-- C95: `DenseFsaVec` fails exactly if there is no segment or a segment is not correct. -/
theorem dense_fsa_vec_fails_iff (T C : Nat) (lp : List (List (List S))) (hlp : Shaped T C lp) (segs : List Seg)
    (allow : Nat) :
    denseFsaVec T C lp segs allow = none ↔ segs = [] ∨ ∃ s ∈ segs, ¬ SegOk lp.length T allow s :=
  denseFsaVec_none_iff T C lp hlp segs allow

/-- The score of label `l` in frame `t` of segment `r` is where `intersect_dense` looks for it: it is the score
of class `l` in frame `start + t` of the sequence. -/
theorem dense_fsa_vec_scores (T C : Nat) (lp : List (List (List S))) (hlp : Shaped T C lp)
    (segs : List Seg) (allow : Nat) (b : Dense S) (dur : List Nat)
    (h : denseFsaVec T C lp segs allow = some (b, dur)) (r : Nat) (s : Seg) (d : Nat) (hs : segs[r]? = some s)
    (hd : dur[r]? = some d) (t l : Nat) (ht : t < d) (hl : l < C) :
    d ≤ s.dur.toNat ∧ ∃ base, b.splits[r]? = some base ∧
      b.mem[(base + t) * b.stride + (l + 1)]? =
        (((lp.getD s.seq.toNat []).getD (s.start.toNat + t) [])[l]?) := by
  have hok : segs ≠ [] ∧ ∀ s ∈ segs, SegOk lp.length T allow s := by
    by_contra hc
    have : denseFsaVec T C lp segs allow = none := by
      rw [denseFsaVec_none_iff T C lp hlp]
      by_cases he : segs = []
      · exact Or.inl he
      · right
        by_contra hn
        push Not at hn
        exact hc ⟨he, hn⟩
    rw [this] at h; exact absurd h (by simp)
  obtain ⟨b', h1, h2, h3⟩ := denseFsaVec_eq T C lp hlp segs allow hok.1 hok.2
  rw [h] at h1
  simp only [Option.some.injEq, Prod.mk.injEq] at h1
  obtain ⟨rfl, rfl⟩ := h1
  rw [List.getElem?_map, hs] at hd
  have hd' : (segFrames lp s).length = d := Option.some.inj hd
  subst hd'
  set B := segs.map (fun s => closed C (segFrames lp s)) with hB
  have hBr : B[r]? = some (closed C (segFrames lp s)) := by rw [hB, List.getElem?_map, hs]; rfl
  refine ⟨by unfold segFrames; rw [List.length_take]; omega, splits B r, ?_, ?_⟩
  · rw [h3.splits, psum_get _ _ (by
      rw [List.length_map]; exact (List.getElem?_eq_some_iff.mp hBr).1.le), ← List.map_take]
    rfl
  · have hrow : B.flatten[splits B r + t]? = some (⊥ :: (segFrames lp s)[t]) := by
      rw [flatten_get B r _ hBr t (by simp [closed]; omega)]
      unfold closed
      rw [List.getElem?_append_left (by simpa using ht), List.getElem?_map, List.getElem?_eq_getElem ht]
      rfl
    have hlt := (List.getElem?_eq_some_iff.mp hrow).1
    have hcol := h3.cols _ (List.mem_of_getElem? hrow)
    have := flatten_get B.flatten _ _ hrow (l + 1) (by rw [hcol, h2]; omega)
    rw [uniform_splits b.cols B.flatten h3.cols _ hlt.le] at this
    rw [h3.mem, h3.stride, this, List.getElem?_cons_succ]
    have he : (lp.getD s.seq.toNat []).getD (s.start.toNat + t) [] = (segFrames lp s)[t] := by
      have h4 := List.getElem?_eq_getElem ht
      conv at h4 => lhs; unfold segFrames
      have h5 : t < s.dur.toNat := by
        have := ht
        unfold segFrames at this
        rw [List.length_take] at this; omega
      rw [List.getElem?_take, if_pos h5, List.getElem?_drop] at h4
      rw [List.getD_eq_getElem?_getD, h4]; rfl
    rw [he]

end

/-! ## The loss for any decoding graphs -/

/-- Minus the logarithm of a probability, which is infinite for an impossible event. -/
noncomputable def lossOf (q : ℝ) : WithTop ℝ := if q = 0 then ⊤ else ((-Real.log q : ℝ) : WithTop ℝ)

theorem negLog_eq : negLog = lossOf := rfl

/-- `l` are the losses of the decoding graphs `F` on the sequences `B`: minus the logarithm of the sum of the
probabilities of a set of alignments, with the delay penalty, that contains all alignments in the beam. -/
def LossOf (F : List (List (List (Arc (WithBot ℝ))))) (B : List (List (List (WithBot ℝ)))) (attr : Attr)
    (lam : ℝ) (neg : WithBot ℝ) (l : List (WithTop ℝ)) : Prop :=
  l.length = F.length ∧
  ∀ (r : Nat) (f : List (List (Arc (WithBot ℝ)))) (fr : List (List (WithBot ℝ))), F[r]? = some f →
    B[r]? = some fr → ∃ P : List (List Nat), P.Nodup ∧ (∀ js ∈ P, ∃ p, IsAlign f fr js p) ∧
      (∀ js p, IsAlign f fr js p → InBeam f fr neg (alignScore p fr) → js ∈ P) ∧
      l[r]? = some (lossOf (P.map (alignProb f fr (max lam 0) (((fr.length - 1) / 2 : Nat) : ℝ)
        (masked attr (splits (F.map List.flatten) r) f.flatten))).sum)

section
variable (run : Run) (F : List (List (List (Arc (WithBot ℝ))))) (B : List (List (List (WithBot ℝ))))
  (b : Dense (WithBot ℝ)) (attr : Attr) (beam lam : ℝ) (lengths : Option (List Nat))
  (hH : Holds B b) (hsort : (B.map List.length).Pairwise (· ≥ ·)) (hA : ArgsOk F B b (List.range F.length))
  (hlen : B.length = F.length) (hattr : 0 < lam → AttrOk attr F.flatten.flatten.length) (hbeam : 0 < beam)
  (hm : 0 < run.maxSize)
include hH hsort hA hlen hattr hbeam hm

/-- C96: whatever `ctc_loss` returns is the loss, for the given beam unless a limit of `intersect_dense` is
exceeded. -/
theorem ctc_loss_sound (hst : run.maxStates ≤ Bat.intMax) (l : List (WithTop ℝ))
    (h : ctcLoss run (flat F) attr b (B.map (fun x => x.length - 1)) beam lam .none lengths = some l) :
    ∃ neg, Narrowed run.dec ((-beam : ℝ) : WithBot ℝ) neg ∧ LossOf F B attr lam neg l := by
  have hneg : ((-beam : ℝ) : WithBot ℝ) < 0 := by
    rw [← WithBot.coe_zero, WithBot.coe_lt_coe]; linarith
  unfold ctcLoss at h
  rw [flat_sp1_length, Nat.add_sub_cancel] at h
  simp only [Option.bind_eq_bind] at h
  obtain ⟨res, h1, h⟩ := Option.bind_eq_some_iff.mp h
  obtain ⟨neg, L, h2, h3, h4, -⟩ := intersectDense_sound F B b (List.range F.length) _ _ _ _ _ _ _ _ res
    (hH.dense hsort) hA hneg hm h1
  obtain ⟨tot, t1, t2, t3⟩ := totals_eq F B b attr neg L res hH hA hlen h3 lam run.lp0 (by omega)
  rw [penalize_eq F B b attr neg L res hH hA hlen h3 lam hattr, Option.bind_some, t1, Option.bind_some] at h
  simp only [reduce, Option.some.injEq] at h
  subst h
  refine ⟨neg, h2, by rw [List.length_map, t2], ?_⟩
  intro r f fr hf hfr
  obtain ⟨P, p1, p2, p3, p4⟩ := t3 r f fr hf hfr
  exact ⟨P, p1, p2, p3, by rw [List.getElem?_map, p4]; rfl⟩

/-- C96: when all states and arcs fit into the limits `ctc_loss` succeeds, with the given beam. -/
theorem ctc_loss_complete (hst : run.maxStates ≤ Bat.intMax) (hf : 0 < run.fuel)
    (h0 : roomArcs F B (List.range F.length) ≤ run.maxSize)
    (h1 : roomStates F B (List.range F.length) ≤ run.maxStates)
    (h2 : roomArcs F B (List.range F.length) ≤ run.maxArcs) :
    ∃ l, ctcLoss run (flat F) attr b (B.map (fun x => x.length - 1)) beam lam .none lengths = some l ∧
      LossOf F B attr lam ((-beam : ℝ) : WithBot ℝ) l := by
  have hneg : ((-beam : ℝ) : WithBot ℝ) < 0 := by
    rw [← WithBot.coe_zero, WithBot.coe_lt_coe]; linarith
  obtain ⟨res, L, e1, e2⟩ := intersectDense_complete F B b (List.range F.length) run.dev run.debug run.fuel
    run.maxSize run.dec _ run.maxStates run.maxArcs (hH.dense hsort) hA hneg hf ⟨h0, hm⟩ h1 h2
  obtain ⟨_, L', -, h3, h4, -⟩ := intersectDense_sound F B b (List.range F.length) _ _ _ _ _ _ _ _ res
    (hH.dense hsort) hA hneg hm e1
  have hsz : (L.map Prod.fst).flatten.length ≤ Bat.intMax := by
    have := flat_id1_length (L.map Prod.fst)
    rw [← e2.fsas, h3.fsas, flat_id1_length] at this
    omega
  obtain ⟨tot, t1, t2, t3⟩ := totals_eq F B b attr _ L res hH hA hlen e2 lam run.lp0 hsz
  refine ⟨tot.map negLog, ?_, by rw [List.length_map, t2], ?_⟩
  · unfold ctcLoss
    rw [flat_sp1_length, Nat.add_sub_cancel, e1]
    simp only [Option.bind_eq_bind, Option.bind_some]
    rw [penalize_eq F B b attr _ L res hH hA hlen e2 lam hattr, Option.bind_some, t1, Option.bind_some]
    rfl
  · intro r f fr hf hfr
    obtain ⟨P, p1, p2, p3, p4⟩ := t3 r f fr hf hfr
    exact ⟨P, p1, p2, p3, by rw [List.getElem?_map, p4]; rfl⟩

end

/-! ## The loss of transcripts -/

theorem sum_alignProb_nonneg (f : List (List (Arc (WithBot ℝ)))) (fr : List (List (WithBot ℝ))) (lam mid : ℝ)
    (mask : Nat → Bool) (P : List (List Nat)) : 0 ≤ (P.map (alignProb f fr lam mid mask)).sum := by
  apply List.sum_nonneg
  intro x hx
  obtain ⟨js, -, rfl⟩ := List.mem_map.mp hx
  exact mul_nonneg (expB_nonneg _) (Real.exp_pos _).le

/-- The loss of a transcript, for minus the beam `neg`: minus the logarithm of a number that is at most the
CTC probability, is 0 only if the CTC probability is 0, and equals the CTC probability if the beam is wide. -/
def CtcLossOf (C : Nat) (fr : List (List (WithBot ℝ))) (y : List Int) (neg : WithBot ℝ) (x : WithTop ℝ) : Prop :=
  ∃ q, x = lossOf q ∧ 0 ≤ q ∧ q ≤ ctcProb C fr y ∧ (q = 0 → ctcProb C fr y = 0) ∧
    (WideBeam fr y neg → q = ctcProb C fr y)

theorem ctc_loss_of (C : Nat) (Y : List (List Int)) (Fr : List (List (List (WithBot ℝ))))
    (G : List (List (List (Arc (WithBot ℝ) × Int)))) (attr : Attr) (neg : WithBot ℝ) (hneg : neg < 0)
    (l : List (WithTop ℝ)) (hC : 0 < C) (hY : ∀ y ∈ Y, ∀ x ∈ y, 0 < x ∧ x < (C : Int))
    (hGY : ∀ (r : Nat) (y : List Int) (g : List (List (Arc (WithBot ℝ) × Int))), Y[r]? = some y → G[r]? = some g →
      IsCtcGraph y g)
    (h : LossOf (G.map arcRows) (Fr.map (closed C)) attr 0 neg l) (r : Nat) (y : List Int)
    (fr : List (List (WithBot ℝ))) (g : List (List (Arc (WithBot ℝ) × Int))) (hy : Y[r]? = some y)
    (hfr : Fr[r]? = some fr) (hg : G[r]? = some g) :
    ∃ x, l[r]? = some x ∧ CtcLossOf C fr y neg x := by
  have hG := hGY r y g hy hg
  obtain ⟨P, p1, p2, p3, p4⟩ := h.2 r (arcRows g) (closed C fr) (by rw [List.getElem?_map, hg]; rfl)
    (by rw [List.getElem?_map, hfr]; rfl)
  rw [max_self] at p4
  have hyb := hY y (List.mem_of_getElem? hy)
  obtain ⟨s1, s2⟩ := sum_le_ctcProb C fr y g hG hyb hC P p1 p2
    ((((closed C fr).length - 1) / 2 : Nat) : ℝ) (masked attr (splits ((G.map arcRows).map List.flatten) r) (arcRows g).flatten)
  refine ⟨_, p4, _, rfl, sum_alignProb_nonneg _ _ _ _ _ _, s1, ?_, ?_⟩
  · intro hq
    have hz : ∀ js ∈ P, alignProb (arcRows g) (closed C fr) 0 ((((closed C fr).length - 1) / 2 : Nat) : ℝ)
        (masked attr (splits ((G.map arcRows).map List.flatten) r) (arcRows g).flatten) js = 0 := by
      intro js hjs
      have hle := List.single_le_sum (l := P.map (alignProb (arcRows g) (closed C fr) 0
        ((((closed C fr).length - 1) / 2 : Nat) : ℝ)
        (masked attr (splits ((G.map arcRows).map List.flatten) r) (arcRows g).flatten))) (by
          intro x hx
          obtain ⟨js, -, rfl⟩ := List.mem_map.mp hx
          exact mul_nonneg (expB_nonneg _) (Real.exp_pos _).le) _ (List.mem_map_of_mem hjs)
      rw [hq] at hle
      exact le_antisymm hle (mul_nonneg (expB_nonneg _) (Real.exp_pos _).le)
    rw [← s2, hq]
    intro js p hp hfin
    exfalso
    obtain ⟨js', p', hp', hb'⟩ := best_align (arcRows g) (closed C fr) neg hneg js p hp hfin hG.rows
    have hm := p3 js' p' hp' hb'
    have h0 := hz js' hm
    unfold alignProb at h0
    rw [arcsAt_eq _ js' p' hp'.arcs] at h0
    rcases mul_eq_zero.mp h0 with h0 | h0
    · have hb0 : alignScore p' (closed C fr) = ⊥ := by
        by_contra hne
        exact absurd h0 (expB_pos.mpr hne).ne'
      have := hb' js p hp
      rw [hb0] at this
      exact absurd this not_lt_bot
    · exact absurd h0 (Real.exp_pos _).ne'
  · intro hw
    apply s2
    intro js p hp hfin
    apply p3 js p hp
    intro js' p' hp'
    obtain ⟨s, a1, a2, a3, a4, a5⟩ := align_score C fr y g hG hyb hC js p hp
    obtain ⟨s', b1, b2, b3, b4, b5⟩ := align_score C fr y g hG hyb hC js' p' hp'
    rw [a5, b5]
    exact hw s' s b2 a2 b3 a3 (by rw [← a5]; exact hfin)

/-- The sizes fit into 16 bits. -/
structure Fits (C T : Nat) (Y : List (List Int)) : Prop where
  cols : C + 1 ≤ 65536
  states : ∀ y ∈ Y, y.length * 2 + 2 < 65536
  fsas : Y.length ≤ 65536
  frames : T + 1 < 65536

/-- Room for all states and arcs at all times. -/
def room (Y : List (List Int)) (dur : List Nat) : Nat :=
  (List.zipWith (fun y d => (d + 2) * (3 * (y.length * 2 + 2))) Y dur).sum

theorem ctcRows_arcs (y : List Int) :
    (arcRows (ctcRows (W := WithBot ℝ) false y)).flatten.length ≤ 3 * (y.length * 2 + 2) := by
  rw [List.length_flatten]
  have := sum_const_le ((arcRows (ctcRows (W := WithBot ℝ) false y)).map List.length) 3 (by
    intro n hn
    obtain ⟨row, hrow, rfl⟩ := List.mem_map.mp hn
    obtain ⟨row', h1, rfl⟩ := List.mem_map.mp hrow
    obtain ⟨q, -, rfl⟩ := List.mem_map.mp h1
    simp only [List.length_map, List.length_range]
    unfold ctcNumArcs
    split
    · split
      · omega
      · simp only [Bool.false_eq_true, if_false]; split <;> omega
    · omega)
  have hl : (arcRows (ctcRows (W := WithBot ℝ) false y)).length = y.length * 2 + 2 := by
    rw [arcRows, List.length_map, ctcRows_length]
  rw [List.length_map, hl] at this
  omega

/-- C96: the loss of a batch of transcripts.  The graphs come from `ctc_graph` and the sequences from
`DenseFsaVec`, sorted by duration, without a delay penalty.  Both succeed; `ctc_loss` returns only losses of
the transcripts on their segments, in the sense of `CtcLossOf`, and it succeeds, with the given beam, if the
limits leave room for all states and arcs. -/
theorem ctc_loss_of_transcripts (run : Run) (T C : Nat) (lp : List (List (List (WithBot ℝ)))) (hlp : Shaped T C lp)
    (segs : List Seg) (allow : Nat) (hs : ∀ s ∈ segs, SegOk lp.length T allow s)
    (hsort : (segs.map (fun s => (segFrames lp s).length)).Pairwise (· ≥ ·))
    (Y : List (List Int)) (hYl : Y.length = segs.length) (hYne : Y ≠ []) (hC : 0 < C)
    (hY : ∀ y ∈ Y, ∀ x ∈ y, 0 < x ∧ x < (C : Int)) (hfit : Fits C T Y) (beam : ℝ) (hbeam : 0 < beam)
    (lengths : Option (List Nat)) (hm : 0 < run.maxSize) (hst : run.maxStates ≤ Bat.intMax)
    (hdec : ∀ x limit n, x < 0 → run.dec x limit n < 0) :
    ∃ graphs aux b dur, ctcGraphs false (psum (Y.map List.length)) Y.flatten = some (graphs, aux) ∧
      denseFsaVec T C lp segs allow = some (b, dur) ∧
      (∀ l, ctcLoss run graphs ⟨some aux, none⟩ b dur beam 0 .none lengths = some l →
        ∃ neg, Narrowed run.dec ((-beam : ℝ) : WithBot ℝ) neg ∧ l.length = Y.length ∧
          ∀ (r : Nat) (y : List Int) (s : Seg), Y[r]? = some y → segs[r]? = some s →
            ∃ x, l[r]? = some x ∧ CtcLossOf C (segFrames lp s) y neg x) ∧
      (0 < run.fuel → room Y dur ≤ run.maxSize → room Y dur ≤ run.maxStates → room Y dur ≤ run.maxArcs →
        ∃ l, ctcLoss run graphs ⟨some aux, none⟩ b dur beam 0 .none lengths = some l ∧ l.length = Y.length ∧
          ∀ (r : Nat) (y : List Int) (s : Seg), Y[r]? = some y → segs[r]? = some s →
            ∃ x, l[r]? = some x ∧ CtcLossOf C (segFrames lp s) y ((-beam : ℝ) : WithBot ℝ) x) := by
  have hsne : segs ≠ [] := by
    intro h; rw [h] at hYl; exact hYne (List.eq_nil_of_length_eq_zero hYl)
  have hne1 : ∀ y ∈ Y, (-1 : Int) ∉ y := fun y hy hm => by have := hY y hy _ hm; omega
  have hne0 : ∀ y ∈ Y, (0 : Int) ∉ y := fun y hy hm => by have := hY y hy _ hm; omega
  have hgr := ctcGraphs_eq (W := WithBot ℝ) false Y (fun _ => hne1)
  set G := ctcAll (W := WithBot ℝ) false Y with hGdef
  have hGY : ∀ (r : Nat) (y : List Int) (g : List (List (Arc (WithBot ℝ) × Int))), Y[r]? = some y → G[r]? = some g →
      IsCtcGraph y g := by
    intro r y g hy hg
    rw [hGdef, ctcAll_get false Y hy] at hg
    obtain rfl := Option.some.inj hg
    have := List.mem_of_getElem? hy
    exact ctcRows_graph y (hne0 y this) (hne1 y this)
  have hGl : G.length = Y.length := by rw [hGdef]; simp [ctcAll]
  obtain ⟨b, hb, hcols, hH⟩ := denseFsaVec_eq T C lp hlp segs allow hsne hs
  set F := G.map arcRows with hF
  set Fr := segs.map (segFrames lp) with hFr
  have hBeq : segs.map (fun s => closed C (segFrames lp s)) = Fr.map (closed C) := by
    rw [hFr, List.map_map]; rfl
  rw [hBeq] at hH
  have hFl : F.length = Y.length := by rw [hF, List.length_map, hGl]
  have hFrl : Fr.length = Y.length := by rw [hFr, List.length_map, hYl]
  have hlen : (Fr.map (closed C)).length = F.length := by rw [List.length_map, hFrl, hFl]
  have hFmem : ∀ f ∈ F, ∃ y ∈ Y, f = arcRows (ctcRows false y) := by
    intro f hf
    obtain ⟨g, hg, rfl⟩ := List.mem_map.mp hf
    rw [hGdef] at hg
    obtain ⟨y, hy, rfl⟩ := List.mem_map.mp hg
    exact ⟨y, hy, rfl⟩
  have hA : ArgsOk F (Fr.map (closed C)) b (List.range F.length) := by
    refine ⟨?_, ?_, ?_, List.length_range, ?_, List.pairwise_le_range, ?_, ?_, ?_, ?_⟩
    · rw [hFl]; exact List.length_pos_of_ne_nil hYne
    · intro f hf
      obtain ⟨y, hy, rfl⟩ := hFmem f hf
      exact ctcRows_ok false y (hne1 y hy)
    · intro f hf a ha
      obtain ⟨y, hy, rfl⟩ := hFmem f hf
      rw [hcols]
      rcases (ctcRows_graph y (hne0 y hy) (hne1 y hy)).labels a ha with h | h | h
      · constructor <;> omega
      · constructor <;> omega
      · have := hY y hy _ h; constructor <;> omega
    · intro u hu
      rw [List.mem_range] at hu
      omega
    · rw [hcols]; exact hfit.cols
    · intro f hf
      obtain ⟨y, hy, rfl⟩ := hFmem f hf
      rw [arcRows, List.length_map, ctcRows_length]
      exact hfit.states y hy
    · rw [hFl]; exact hfit.fsas
    · intro fr hfr
      obtain ⟨x, hx, rfl⟩ := List.mem_map.mp hfr
      obtain ⟨s, hsm, rfl⟩ := List.mem_map.mp hx
      rw [closed_length, segFrames_length T C lp hlp allow s (hs s hsm)]
      have := hfit.frames
      have : segLen T s ≤ T := by unfold segLen; omega
      omega
  have hsrt : ((Fr.map (closed C)).map List.length).Pairwise (· ≥ ·) := by
    rw [List.map_map, hFr, List.map_map, List.pairwise_map]
    rw [List.pairwise_map] at hsort
    refine hsort.imp ?_
    intro x z hxz
    simp only [Function.comp_apply, closed_length]
    omega
  have hdur : segs.map (fun s => (segFrames lp s).length) = (Fr.map (closed C)).map (fun x => x.length - 1) := by
    rw [List.map_map, hFr, List.map_map]
    apply List.map_congr_left
    intro s _
    simp only [Function.comp_apply, closed_length, Nat.add_sub_cancel]
  have hnegs : ((-beam : ℝ) : WithBot ℝ) < 0 := by
    rw [← WithBot.coe_zero, WithBot.coe_lt_coe]; linarith
  have hnar : ∀ x z, Narrowed run.dec x z → x < 0 → z < 0 := by
    intro x z h
    induction h with
    | refl => exact id
    | step neg neg' limit n _ _ ih => exact fun hx => ih (hdec _ _ _ hx)
  have hloss : ∀ neg l, neg < 0 → LossOf F (Fr.map (closed C)) ⟨some ((G.flatten.flatten).map Prod.snd), none⟩ 0 neg l →
      l.length = Y.length ∧ ∀ (r : Nat) (y : List Int) (s : Seg), Y[r]? = some y → segs[r]? = some s →
        ∃ x, l[r]? = some x ∧ CtcLossOf C (segFrames lp s) y neg x := by
    intro neg l hn h
    refine ⟨by rw [h.1, hFl], ?_⟩
    intro r y s hy hsr
    exact ctc_loss_of C Y Fr G _ neg hn l hC hY hGY h r y (segFrames lp s) (ctcRows false y) hy (by
      rw [hFr, List.getElem?_map, hsr]; rfl) (ctcAll_get false Y hy)
  refine ⟨_, _, b, _, hgr, hb, ?_, ?_⟩
  · intro l hl
    rw [hdur] at hl
    obtain ⟨neg, h1, h2⟩ := ctc_loss_sound run F (Fr.map (closed C)) b _ beam 0 lengths hH hsrt hA hlen
      (fun h => absurd h (lt_irrefl _)) hbeam hm hst l hl
    exact ⟨neg, h1, hloss neg l (hnar _ _ h1 hnegs) h2⟩
  · intro hf e1 e2 e3
    have hrs : roomStates F (Fr.map (closed C)) (List.range F.length) ≤ room Y (segs.map (fun s => (segFrames lp s).length)) ∧
        roomArcs F (Fr.map (closed C)) (List.range F.length) ≤ room Y (segs.map (fun s => (segFrames lp s).length)) := by
      have hat : ∀ r (hr : r < Y.length), F[r]? = some (arcRows (ctcRows false Y[r])) ∧
          (Fr.map (closed C)).getD r [] = closed C (segFrames lp (segs[r]'(by omega))) := by
        intro r hr
        constructor
        · rw [hF, List.getElem?_map, hGdef, ctcAll_get false Y (List.getElem?_eq_getElem hr)]; rfl
        · rw [List.getD_eq_getElem?_getD, List.getElem?_map, hFr, List.getElem?_map,
            List.getElem?_eq_getElem (show r < segs.length by omega)]
          rfl
      unfold roomStates roomArcs room
      constructor
      all_goals
        apply sum_le
        · simp only [List.length_zipWith, List.length_range, List.length_map, hFl, hYl]
        · intro r a c ha hc
          have hr : r < Y.length := by
            have := (List.getElem?_eq_some_iff.mp ha).1
            simp only [List.length_zipWith, List.length_range, hFl] at this
            omega
          obtain ⟨k1, k2⟩ := hat r hr
          simp only [List.getElem?_zipWith, k1, List.getElem?_range (show r < F.length by omega), k2,
            closed_length, Option.some.injEq] at ha
          simp only [List.getElem?_zipWith, List.getElem?_eq_getElem hr, List.getElem?_map,
            List.getElem?_eq_getElem (show r < segs.length by omega), Option.map_some, Option.some.injEq] at hc
          rw [← ha, ← hc]
          refine Nat.mul_le_mul (by omega) ?_
          first
          | exact ctcRows_arcs _
          | (rw [arcRows, List.length_map, ctcRows_length]; omega)
    obtain ⟨l, h1, h2⟩ := ctc_loss_complete run F (Fr.map (closed C)) b
      ⟨some ((G.flatten.flatten).map Prod.snd), none⟩ beam 0 lengths hH hsrt hA hlen
      (fun h => absurd h (lt_irrefl _)) hbeam hm hst hf (by omega) (by omega) (by omega)
    rw [hdur]
    exact ⟨l, h1, hloss _ l hnegs h2⟩

/-! ## Reductions -/

/-- C96: with the reduction `sum` the result is the sum of the losses. -/
theorem ctc_loss_sum (run : Run) (graphs : FsaVec (WithBot ℝ)) (attr : Attr) (b : Dense (WithBot ℝ)) (dur : List Nat)
    (beam lam : ℝ) (lengths : Option (List Nat)) (l : List (WithTop ℝ))
    (h : ctcLoss run graphs attr b dur beam lam .none none = some l) :
    ctcLoss run graphs attr b dur beam lam .sum lengths = some [l.sum] := by
  unfold ctcLoss at h ⊢
  simp only [Option.bind_eq_bind] at h ⊢
  obtain ⟨res, h1, h⟩ := Option.bind_eq_some_iff.mp h
  obtain ⟨v, h2, h⟩ := Option.bind_eq_some_iff.mp h
  obtain ⟨tot, h3, h⟩ := Option.bind_eq_some_iff.mp h
  simp only [reduce, Option.some.injEq] at h
  rw [h1, Option.bind_some, h2, Option.bind_some, h3, Option.bind_some, h]
  rfl

/-- C96: with the reduction `mean` each loss is divided by the length of its transcript, and the result is the
mean of the quotients.  The result is not a number if a transcript is empty (or there is none). -/
theorem ctc_loss_mean (run : Run) (graphs : FsaVec (WithBot ℝ)) (attr : Attr) (b : Dense (WithBot ℝ)) (dur : List Nat)
    (beam lam : ℝ) (ns : List Nat) (l : List (WithTop ℝ)) (hn : ns.length = l.length)
    (h : ctcLoss run graphs attr b dur beam lam .none none = some l) :
    (0 ∉ ns → l ≠ [] → ctcLoss run graphs attr b dur beam lam .mean (some ns) =
      some [((List.zipWith (fun (x : WithTop ℝ) (n : Nat) => x.map (· / (n : ℝ))) l ns).sum).map (· / (l.length : ℝ))]) ∧
    (0 ∈ ns ∨ l = [] → ctcLoss run graphs attr b dur beam lam .mean (some ns) = none) := by
  unfold ctcLoss at h ⊢
  simp only [Option.bind_eq_bind] at h ⊢
  obtain ⟨res, h1, h⟩ := Option.bind_eq_some_iff.mp h
  obtain ⟨v, h2, h⟩ := Option.bind_eq_some_iff.mp h
  obtain ⟨tot, h3, h⟩ := Option.bind_eq_some_iff.mp h
  simp only [reduce, Option.some.injEq] at h
  rw [h1, Option.bind_some, h2, Option.bind_some, h3, Option.bind_some, h]
  simp only [reduce, Option.bind_eq_bind, Option.bind_some]
  rw [if_neg (by omega)]
  have hz : 0 ∉ ns → (l.zip ns).mapM (fun x => divBy x.1 x.2) =
      some (List.zipWith (fun (x : WithTop ℝ) (n : Nat) => x.map (· / (n : ℝ))) l ns) := by
    intro h0
    apply mapM_some_of
    · simp
    · intro i x hx
      rw [List.zip_eq_zipWith, List.getElem?_zipWith] at hx
      rw [List.getElem?_zipWith]
      cases hl : l[i]? with
      | none => rw [hl] at hx; simp at hx
      | some a =>
        cases hk : ns[i]? with
        | none => rw [hl, hk] at hx; simp at hx
        | some n =>
          rw [hl, hk] at hx
          obtain rfl := Option.some.inj hx
          have : n ≠ 0 := fun e => h0 (e ▸ List.mem_of_getElem? hk)
          simp only [divBy, if_neg this]
  constructor
  · intro h0 hne
    rw [hz h0, Option.bind_some]
    have hpos : (List.zipWith (fun (x : WithTop ℝ) (n : Nat) => x.map (· / (n : ℝ))) l ns).length ≠ 0 := by
      rw [List.length_zipWith, hn, min_self]
      exact fun e => hne (List.eq_nil_of_length_eq_zero e)
    rw [divBy, if_neg hpos, Option.bind_some, List.length_zipWith, hn, min_self]
  · intro hc
    by_cases h0 : 0 ∈ ns
    · obtain ⟨i, hi⟩ := List.getElem?_of_mem h0
      have hil := (List.getElem?_eq_some_iff.mp hi).1
      have hl := List.getElem?_eq_getElem (show i < l.length by omega)
      rw [mapM_none _ _ (l[i]'(by omega), 0) (List.mem_of_getElem? (i := i) (by
        rw [List.zip_eq_zipWith, List.getElem?_zipWith, hl, hi])) (by simp [divBy])]
      rfl
    · rcases hc with h' | rfl
      · exact absurd h' h0
      · have : ns = [] := List.eq_nil_of_length_eq_zero hn
        subst this
        simp [divBy]

/-! ## Examples -/

section Examples

/-- Two sequences of three frames with two classes; the second segment goes beyond the end. -/
def lpEx : List (List (List (WithBot ℤ))) :=
  [[[(-1 : ℤ), (-2 : ℤ)], [(-3 : ℤ), (-4 : ℤ)], [(-5 : ℤ), (-6 : ℤ)]],
   [[(-7 : ℤ), (-8 : ℤ)], [(-9 : ℤ), (-10 : ℤ)], [(-11 : ℤ), (-12 : ℤ)]]]

def segsEx : List Seg := [⟨1, 0, 2⟩, ⟨0, 2, 2⟩]

example : Shaped 3 2 lpEx := ⟨by decide, by decide⟩
example : ∀ s ∈ segsEx, SegOk lpEx.length 3 1 s := by
  intro s hs
  fin_cases hs
  · exact ⟨by decide, by decide, by decide, by decide⟩
  · exact ⟨by decide, by decide, by decide, by decide⟩
example : (denseFsaVec 3 2 lpEx segsEx 1).map (fun x => (x.1.splits, x.2)) = some ([0, 3, 5], [2, 1]) := by decide
example : (denseFsaVec 3 2 lpEx segsEx 1).map (fun x => x.1.mem) = some
    ([⊥, (-7 : ℤ), (-8 : ℤ), ⊥, (-9 : ℤ), (-10 : ℤ), 0, ⊥, ⊥, ⊥, (-5 : ℤ), (-6 : ℤ), 0, ⊥, ⊥] :
      List (WithBot ℤ)) := by decide
/-- Without `allow_truncate` the second segment is rejected. -/
example : denseFsaVec 3 2 lpEx segsEx 0 = none := by decide
/-- The documentation demands a duration greater than 0; the code takes 0. -/
example : (denseFsaVec 3 2 lpEx [⟨1, 0, 0⟩] 0).map (fun x => (x.1.splits, x.2)) = some ([0, 1], [0]) := by decide

/-- The attributes of a graph with two arcs, with and without repeat flags. -/
example : AttrOk ⟨some [0, 5], none⟩ 2 := ⟨by simp, fun _ => ⟨_, rfl, rfl⟩⟩
example : AttrOk ⟨none, some [true, false]⟩ 2 := ⟨fun _ h => by obtain rfl := Option.some.inj h; rfl, by simp⟩

/-- Only the arc of token 5, aligned with frame 0, is penalized; the middle is frame 2. -/
example (lam : ℝ) : delay lam 2 (masked ⟨some [0, 5], none⟩ 0 []) 0 [1, 0] = lam * 2 := by
  simp [delay, masked]

/-- One sequence of two frames on which blank and token have the score 0. -/
def flatFr : List (List (WithBot ℝ)) := [[0, 0], [0, 0]]

def runEx : Run := ⟨.cpu, false, 1, 1000, fun x _ _ => x, 1000, 1000, 0⟩

theorem seqScore_flat (s : List Int) (hs : s.length = 2) : seqScore flatFr s = 0 ∨ seqScore flatFr s = ⊥ := by
  obtain ⟨a, c, rfl⟩ := List.length_eq_two.mp hs
  have hr : ∀ x : Int, ([0, 0] : List (WithBot ℝ)).getD x.toNat ⊥ = 0 ∨
      ([0, 0] : List (WithBot ℝ)).getD x.toNat ⊥ = ⊥ := by
    intro x
    rcases x.toNat with _ | _ | k <;> simp
  simp only [seqScore, flatFr, List.zipWith_cons_cons, List.zipWith_nil_right, List.sum_cons, List.sum_nil, add_zero]
  rcases hr a with h1 | h1 <;> rcases hr c with h2 | h2 <;> rw [h1, h2] <;> simp

/-- The three sequences `1 1`, `0 1` and `1 0` collapse to the transcript `1`. -/
theorem ctcProb_flat : ctcProb 2 flatFr [1] = 3 := by
  classical
  have hone : ∀ s : Fin flatFr.length → Fin 2, ∏ t, expB ((flatFr.get t).getD (s t) ⊥) = 1 := by
    intro s
    apply Finset.prod_eq_one
    intro t _
    have : ∀ (t : Fin 2) (x : Fin 2), (([[0, 0], [0, 0]] : List (List (WithBot ℝ))).get t).getD x ⊥ = 0 := by
      intro t x
      fin_cases t <;> fin_cases x <;> rfl
    rw [show (flatFr.get t).getD (s t) ⊥ = 0 from this t (s t)]
    simp
  have hc : (Finset.univ.filter (fun s : Fin 2 → Fin 2 =>
      ctcCollapse (List.ofFn (fun t => ((s t : Nat) : Int))) = [1])).card = 3 := by decide
  unfold ctcProb
  simp only [hone]
  rw [← Finset.sum_filter, Finset.sum_const, nsmul_eq_mul, mul_one]
  have : ∀ (D : DecidablePred (fun s : Fin flatFr.length → Fin 2 =>
      ctcCollapse (List.ofFn (fun t => ((s t : Nat) : Int))) = [1])),
      (@Finset.filter _ (fun s : Fin flatFr.length → Fin 2 =>
        ctcCollapse (List.ofFn (fun t => ((s t : Nat) : Int))) = [1]) D Finset.univ).card = 3 := by
    intro D
    rw [← hc]
    congr
  rw [this]; norm_num

/-- The loss of the transcript `1` on two frames without information is minus the logarithm of 3. -/
example : ∃ graphs aux b dur, ctcGraphs false [0, 1] [1] = some (graphs, aux) ∧
    denseFsaVec 2 2 [flatFr] [⟨0, 0, 2⟩] 0 = some (b, dur) ∧
    ctcLoss runEx graphs ⟨some aux, none⟩ b dur 1 0 .none none = some [((-Real.log 3 : ℝ) : WithTop ℝ)] := by
  obtain ⟨graphs, aux, b, dur, h1, h2, -, h4⟩ := ctc_loss_of_transcripts runEx 2 2 [flatFr]
    ⟨by simp [flatFr], by simp [flatFr]⟩ [⟨0, 0, 2⟩] 0 (by
      intro s hs
      obtain rfl : s = ⟨0, 0, 2⟩ := by simpa using hs
      exact ⟨by decide, by decide, by decide, by decide⟩) (by simp) [[1]] rfl (by simp) (by omega) (by simp)
    ⟨by omega, by simp, by simp, by omega⟩ 1 one_pos none (by decide) (by decide) (fun _ _ _ h => h)
  have hd : dur = [2] := by
    have := denseFsaVec_eq 2 2 [flatFr] ⟨by simp [flatFr], by simp [flatFr]⟩ [⟨0, 0, 2⟩] 0 (by simp) (by
      intro s hs
      obtain rfl : s = ⟨0, 0, 2⟩ := by simpa using hs
      exact ⟨by decide, by decide, by decide, by decide⟩)
    obtain ⟨b', e, -⟩ := this
    rw [h2] at e
    simp only [Option.some.injEq, Prod.mk.injEq] at e
    rw [e.2]
    simp [segFrames, flatFr]
  obtain ⟨l, e1, e2, e3⟩ := h4 (by decide) (by rw [hd]; decide) (by rw [hd]; decide) (by rw [hd]; decide)
  refine ⟨graphs, aux, b, dur, h1, h2, ?_⟩
  obtain ⟨x, hx, q, rfl, -, -, -, hq⟩ := e3 0 [1] ⟨0, 0, 2⟩ rfl rfl
  have hfr : segFrames [flatFr] ⟨0, 0, 2⟩ = flatFr := by simp [segFrames, flatFr]
  rw [hfr] at hq
  have hw : WideBeam flatFr [1] (((-1 : ℝ)) : WithBot ℝ) := by
    intro s s' hs hs' _ _ hne
    rcases seqScore_flat s' hs' with h | h
    · rw [h]
      rcases seqScore_flat s hs with h' | h'
      · rw [h', zero_add, ← WithBot.coe_zero, WithBot.coe_lt_coe]; norm_num
      · rw [h', WithBot.bot_add, ← WithBot.coe_zero]; exact WithBot.bot_lt_coe 0
    · exact absurd h hne
  have hq3 := hq hw
  rw [ctcProb_flat] at hq3
  rw [e1]
  obtain ⟨z, rfl⟩ : ∃ z, l = [z] := List.length_eq_one_iff.mp (by simpa using e2)
  simp only [List.getElem?_cons_zero, Option.some.injEq] at hx
  rw [hx, hq3, lossOf, if_neg (by norm_num)]

end Examples

end Verif.Fsa.Loss
