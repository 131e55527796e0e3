import Verif.Fsa.Pruned.More
import Verif.Fsa.Dense.Init

/-!
# Properties of `IntersectDensePruned`

The statements are about decoding graphs `F`, each given by the arcs of each state, and sequences `B` of
frames of a network.  `Decoded` (Spec.lean) says what the result for a sequence is.
-/

set_option linter.unusedSectionVars false

namespace Verif.Fsa.Dp
open Verif.Ragged Verif.Util Verif.Fsa.Dn Verif.Fsa.Sco Verif.Fsa.Top

section
variable {K : Type} [Field K] [LinearOrder K] [IsStrictOrderedRing K]

local notation "S" => WithBot K

/-- A valid decoding graph, all of whose labels have a column: the final state is the last one, no arc
leaves it, and exactly the arcs that enter it have label -1. -/
structure GraphOk (cols : Nat) (f : List (List (Arc S))) : Prop where
  rows : RowsOk f
  label : ∀ a ∈ f.flatten, -1 ≤ a.label ∧ a.label + 1 < cols
  leave : ∀ a ∈ f.flatten, a.src + 1 < f.length
  final : ∀ a ∈ f.flatten, (a.label = -1 ↔ a.dst + 1 = f.length)

/-- Frames as `DenseFsaVec` documents them: label -1 is impossible but on the last frame, where the other
labels are. -/
structure FramesOk (fr : List (List S)) : Prop where
  pos : 0 < fr.length
  last : ∀ l : Int, 0 ≤ l → labScore (fr.getD (fr.length - 1) []) l = ⊥
  others : ∀ t, t + 1 < fr.length → labScore (fr.getD t []) (-1) = ⊥

/-- The arguments hold the graphs `F` and the sequences `B`. -/
structure ArgsOk (p : Args K) (F : List (List (List (Arc S)))) (B : List (List (List S))) : Prop where
  v : p.v = flat F
  splits : p.b.splits = psum (B.map List.length)
  cols : ∀ row ∈ B.flatten, row.length = p.b.cols
  mem : ∀ (i : Nat) (row : List S) (k : Nat) (x : S), B.flatten[i]? = some row → row[k]? = some x →
    p.b.mem[i * p.b.stride + k]? = some x
  sizes : F.length = B.length ∨ F.length = 1
  pos : 0 < B.length
  search : 0 < p.searchBeam
  output : 0 < p.outputBeam
  active : p.minActive < p.maxActive
  graphs : ∀ f ∈ F, GraphOk p.b.cols f
  frames : ∀ fr ∈ B, FramesOk fr

/-- The graph of sequence `i`. -/
def graphAt (F : List (List (List (Arc S)))) (i : Nat) : Nat := if F.length = 1 then 0 else i

/-- A path of one arc for each frame but the last ends, with a finite score, in a state with a final
arc. -/
def CanEnd (f : List (List (Arc S))) (fr : List (List S)) : Prop :=
  ∃ pth a, Path f.flatten 0 pth a.src ∧ pth.length + 1 = fr.length ∧ alignScore pth fr ≠ ⊥ ∧ a ∈ f.flatten ∧
    a.label = -1

/-- No score is minus infinity, but those that must be, and every state but the final one has an arc with
a label other than -1. -/
structure Lively (f : List (List (Arc S))) (fr : List (List S)) : Prop where
  size : 1 < f.length
  state : ∀ q, q + 1 < f.length → ∃ a ∈ f.flatten, a.src = q ∧ a.label ≠ -1
  score : ∀ a ∈ f.flatten, a.score ≠ ⊥
  frame : ∀ t, t + 1 < fr.length → ∀ a ∈ f.flatten, a.label ≠ -1 → labScore (fr.getD t []) a.label ≠ ⊥
  last : labScore (fr.getD (fr.length - 1) []) (-1) ≠ ⊥

/-- What a user relies on for one sequence; `frames` is the largest number of frames of a sequence. -/
structure Result1 (p : Args K) (frames : Nat) (f : List (List (Arc S))) (fr : List (List S)) (aoff base : Nat)
    (part : Bool) (g : List (List (Arc S))) (ma : List Int) (mb : List Nat) : Prop where
  /-- The search beam shrinks at most to four fifths with each frame. -/
  decoded : Decoded f fr aoff base p.b.cols p.outputBeam (fun t => p.searchBeam * (4 / 5) ^ t) part g ma mb
  /-- It never shrinks if the graph has at most `max_active` states. -/
  decodedSmall : f.length ≤ p.maxActive →
    Decoded f fr aoff base p.b.cols p.outputBeam (fun _ => p.searchBeam) part g ma mb
  /-- Partial results are only made if they are allowed. -/
  asked : part = true → p.allowPartial = true
  /-- They are made if nothing else is possible. -/
  needed : p.allowPartial = true → ¬ CanEnd f fr → part = true
  /-- With partial results allowed, there is a result. -/
  lively : p.allowPartial = true → Lively f fr → ∃ is q, IsOut g is q
  /-- In batches of at most 20 frames, nothing useless is left. -/
  used : frames ≤ 20 → Used g p.outputBeam

/-- The results of a batch, one after the other. -/
structure Results (p : Args K) (F : List (List (List (Arc S)))) (B : List (List (List S)))
    (G : List (List (List (Arc S)) × List Int × List Nat)) (res : FsaVec S × List Int × List Nat) : Prop where
  length : G.length = B.length
  fsas : res.1 = flat (G.map Prod.fst)
  mapA : res.2.1 = (G.map (fun x => x.2.1)).flatten
  mapB : res.2.2 = (G.map (fun x => x.2.2)).flatten

/-! ## The places in the arrays -/

/-- Sequence `i`. -/
def seqOf (F : List (List (List (Arc S)))) (B : List (List (List S))) (i : Nat) : Seq K :=
  ⟨F.getD (graphAt F i) [], B.getD i [], Verif.Fsa.off F (graphAt F i),
    splits (F.map List.flatten) (graphAt F i), splits B i⟩

variable {p : Args K} {F : List (List (List (Arc (WithBot K))))} {B : List (List (List (WithBot K)))}

theorem ArgsOk.seqs_eq (hA : ArgsOk p F B) : p.seqs = B.length := by
  rw [Args.seqs, hA.splits, psum_length, List.length_map]; rfl

theorem ArgsOk.fsas_eq (hA : ArgsOk p F B) : p.fsas = F.length := by
  rw [Args.fsas, hA.v, flat_sp1_length]; rfl

theorem ArgsOk.at_eq (hA : ArgsOk p F B) (i : Nat) : i * p.stride = graphAt F i := by
  rw [Args.stride, hA.fsas_eq, graphAt]
  split <;> simp

theorem ArgsOk.at_lt (hA : ArgsOk p F B) (i : Nat) (hi : i < p.seqs) : graphAt F i < F.length := by
  rw [hA.seqs_eq] at hi
  unfold graphAt
  split
  · omega
  · rcases hA.sizes with h | h <;> omega

theorem ArgsOk.graph_get (hA : ArgsOk p F B) (i : Nat) (hi : i < p.seqs) :
    F[graphAt F i]? = some (seqOf F B i).f := by
  have := hA.at_lt i hi
  rw [seqOf, List.getD_eq_getElem?_getD, List.getElem?_eq_getElem this]; rfl

theorem ArgsOk.frames_get (hA : ArgsOk p F B) (i : Nat) (hi : i < p.seqs) : B[i]? = some (seqOf F B i).fr := by
  rw [hA.seqs_eq] at hi
  show _ = some (B.getD i [])
  rw [List.getD_eq_getElem?_getD, List.getElem?_eq_getElem hi]; rfl

theorem ArgsOk.maxFrames_eq (hA : ArgsOk p F B) : p.maxFrames = (B.map List.length).foldl max 0 := by
  have h : (psum (B.map List.length)).zipWith (fun x y => y - x) (psum (B.map List.length)).tail =
      B.map List.length := by
    generalize B.map List.length = ns
    apply List.ext_getElem?
    intro i
    rw [List.getElem?_zipWith, List.getElem?_tail]
    by_cases hi : i < ns.length
    · rw [psum_get _ _ (by omega), psum_get _ _ (by omega), List.getElem?_eq_getElem hi,
        take_succ_sum ns i _ (List.getElem?_eq_getElem hi)]
      simp
    · have h0 : (psum ns)[i + 1]? = none := List.getElem?_eq_none (by rw [psum_length]; omega)
      rw [h0, List.getElem?_eq_none (l := ns) (by omega)]
      cases (psum ns)[i]? <;> rfl
  rw [Args.maxFrames, hA.splits, h]

theorem ArgsOk.seq_ok (hA : ArgsOk p F B) (i : Nat) (hi : i < p.seqs) : SeqOk (seqOf F B i) := by
  have hg := hA.graphs _ (List.mem_of_getElem? (hA.graph_get i hi))
  have hf := hA.frames _ (List.mem_of_getElem? (hA.frames_get i hi))
  exact ⟨hg.rows, hf.pos, hg.leave, fun a ha => (hg.final a ha).mp, fun a ha hl => hf.last _ (by
    have := (hg.label a ha).1; omega), hf.others⟩

theorem ArgsOk.setup (hA : ArgsOk p F B) : Setup p (seqOf F B) := by
  have hs := hA.seqs_eq
  constructor
  · intro i hi
    have h1 := hA.frames_get i hi
    rw [Args.frames, hA.splits, psum_splits _ _ (by omega), psum_splits _ _ (by omega), splits_succ B i _ h1]
    simp
  · intro i hi
    rw [hA.splits, psum_splits _ _ (by omega)]; rfl
  · intro i hi
    rw [hA.v, hA.at_eq, flat_sp1 _ _ (by have := hA.at_lt i hi; omega)]; rfl
  · intro i hi
    rw [hA.v, hA.at_eq, flat_sp1_succ _ _ _ (hA.graph_get i hi)]; rfl
  · intro i hi q hq
    rw [hA.v, hA.at_eq]
    exact flat_id1 _ _ q _ (hA.graph_get i hi) hq
  · intro i hi q row hq
    have hlt := (List.getElem?_eq_some_iff.mp hq).1
    have h1 := state_at F _ q _ (hA.graph_get i hi) hlt
    rw [hq] at h1
    rw [hA.v]
    have h2 := rowElems_flat F _ row h1
    rw [apos_add F _ q _ (hA.graph_get i hi) (by omega)] at h2
    exact h2
  · intro i hi j a ha
    rw [hA.v]
    show F.flatten.flatten[_]? = _
    have h1 : (F.map List.flatten)[graphAt F i]? = some (seqOf F B i).f.flatten := by
      rw [List.getElem?_map, hA.graph_get i hi]; rfl
    have h2 := flatten_get _ _ _ h1 j (List.getElem?_eq_some_iff.mp ha).1
    rw [ha] at h2
    rw [List.flatten_flatten]
    exact h2
  · intro i hi a ha
    have := (hA.graphs _ (List.mem_of_getElem? (hA.graph_get i hi))).label a ha
    omega
  · intro i hi a ha t ht
    have hl := (hA.graphs _ (List.mem_of_getElem? (hA.graph_get i hi))).label a ha
    have h1 := hA.frames_get i hi
    have h2 := List.getElem?_eq_getElem ht
    have h3 := flatten_get B i _ h1 t ht
    rw [h2] at h3
    have hc := hA.cols _ (List.mem_of_getElem? h3)
    have h4 := List.getElem?_eq_getElem (show (a.label + 1).toNat < (seqOf F B i).fr[t].length by omega)
    have h5 := hA.mem _ _ _ _ h3 h4
    rw [labScore, List.getD_eq_getElem?_getD, List.getD_eq_getElem?_getD, h2, Option.getD_some, h4, Option.getD_some]
    exact h5
  · intro i hi i' hi' q hq q' hq' he
    have h1 := hA.graph_get i hi
    have h2 := hA.graph_get i' hi'
    change Verif.Fsa.off F (graphAt F i) + q + i * p.keyStride =
      Verif.Fsa.off F (graphAt F i') + q' + i' * p.keyStride at he
    rw [Args.keyStride, hA.fsas_eq] at he
    by_cases hone : F.length = 1
    · rw [if_pos hone, hA.v] at he
      have e0 : ∀ i, graphAt F i = 0 := fun i => by rw [graphAt, if_pos hone]
      rw [e0, e0] at he
      rw [e0] at h1 h2
      have hn : (flat F).sp2.length - 1 = F.flatten.length := by
        rw [flat, psum_length, List.length_map]; rfl
      rw [hn] at he
      have hq1 := off_lt F 0 q _ h1 hq
      have hq2 := off_lt F 0 q' _ h2 hq'
      have hoff : Verif.Fsa.off F 0 = 0 := by simp [Verif.Fsa.off]
      rw [hoff] at he hq1 hq2
      set n := F.flatten.length
      have hii : i = i' := by
        rcases lt_trichotomy i i' with h | h | h
        · have := Nat.mul_le_mul_right n (show i + 1 ≤ i' from h)
          rw [Nat.add_mul] at this; omega
        · exact h
        · have := Nat.mul_le_mul_right n (show i' + 1 ≤ i from h)
          rw [Nat.add_mul] at this; omega
      subst hii
      exact ⟨rfl, by omega⟩
    · rw [if_neg hone] at he
      have e0 : ∀ i, graphAt F i = i := fun i => by rw [graphAt, if_neg hone]
      rw [e0] at h1 h2
      rw [e0, e0] at he
      exact off_inj F i i' q q' _ _ h1 h2 hq hq' (by omega)
  · exact fun i hi => hA.seq_ok i hi
  · intro i hi
    have h1 := hA.frames_get i hi
    rw [hA.maxFrames_eq]
    have : ∀ (l : List Nat) (x m : Nat), x ∈ l → x ≤ l.foldl max m := by
      intro l
      induction l with
      | nil => simp
      | cons y l ih =>
        intro x m hx
        rcases List.mem_cons.mp hx with rfl | hx
        · have : ∀ (l : List Nat) (m : Nat), m ≤ l.foldl max m := by
            intro l
            induction l with
            | nil => intro m; exact le_rfl
            | cons y l ih => intro m; exact le_trans (le_max_left m y) (ih _)
          exact le_trans (le_max_right m x) (this l _)
        · exact ih x _ hx
    exact this _ _ _ (List.mem_map.mpr ⟨_, List.mem_of_getElem? h1, rfl⟩)

theorem ArgsOk.ok (hA : ArgsOk p F B) : p.ok := by
  refine ⟨hA.search, hA.output, hA.active, ?_, ?_⟩
  · rw [hA.fsas_eq, hA.seqs_eq]; exact hA.sizes
  · rw [hA.seqs_eq]; exact hA.pos

theorem ArgsOk.some_frame (hA : ArgsOk p F B) : 0 < p.maxFrames := by
  have h0 : 0 < p.seqs := by rw [hA.seqs_eq]; exact hA.pos
  have := hA.setup.maxT 0 h0
  have := (hA.seq_ok 0 h0).pos
  omega

/-- The results for given orders of the states. -/
def outs (p : Args K) (F : List (List (List (Arc S)))) (B : List (List (List S))) (L : Nat → Nat → List Nat) :
    List (List (List (Arc S)) × List Int × List Nat) :=
  (List.range p.seqs).map (fun i =>
    (outFsa p (seqOf F B i) (rest p (seqOf F B i) (L i)), outMapA p (seqOf F B i) (rest p (seqOf F B i) (L i)),
      outMapB p (seqOf F B i) (rest p (seqOf F B i) (L i))))

theorem ArgsOk.run (hA : ArgsOk p F B) (order : Nat → Nat → List Nat)
    (ho : ∀ t n, (order t n).Perm (List.range n)) : ∃ L : Nat → Nat → List Nat,
    (∀ i < p.seqs, AllActive p (seqOf F B i) (L i)) ∧ ∃ res, intersectDensePruned p order = some res ∧
      Results p F B (outs p F B L) res := by
  obtain ⟨L, h1, h2⟩ := hA.setup.run hA.ok hA.some_frame order ho
  refine ⟨L, h1, _, h2, ?_, ?_, ?_, ?_⟩
  · rw [outs, List.length_map, List.length_range, hA.seqs_eq]
  · simp only [outs, List.map_map]; rfl
  · simp only [outs, List.map_map]; rfl
  · simp only [outs, List.map_map]; rfl

theorem outs_get (L : Nat → Nat → List Nat) (i : Nat) (hi : i < p.seqs) : (outs p F B L)[i]? =
    some (outFsa p (seqOf F B i) (rest p (seqOf F B i) (L i)), outMapA p (seqOf F B i) (rest p (seqOf F B i) (L i)),
      outMapB p (seqOf F B i) (rest p (seqOf F B i) (L i))) := by
  rw [outs, List.getElem?_map, List.getElem?_range hi]; rfl

/-! ## The theorems -/

/-- The function succeeds, whatever the order of the insertions into the hash, and its result is what is
promised for each sequence. -/
theorem intersectDensePruned_decodes (hA : ArgsOk p F B) (order : Nat → Nat → List Nat)
    (ho : ∀ t n, (order t n).Perm (List.range n)) : ∃ G res, intersectDensePruned p order = some res ∧
    Results p F B G res ∧
    ∀ (i : Nat) (f : List (List (Arc S))) (fr : List (List S)), F[graphAt F i]? = some f → B[i]? = some fr →
      ∃ g ma mb part, G[i]? = some (g, ma, mb) ∧
        Result1 p ((B.map List.length).foldl max 0) f fr (splits (F.map List.flatten) (graphAt F i)) (splits B i)
          part g ma mb := by
  obtain ⟨L, h1, res, h2, h3⟩ := hA.run order ho
  refine ⟨_, res, h2, h3, ?_⟩
  intro i f fr hf hfr
  have hi : i < p.seqs := by
    rw [hA.seqs_eq]; exact (List.getElem?_eq_some_iff.mp hfr).1
  have hc := hA.seq_ok i hi
  have e1 := hA.graph_get i hi
  have e2 := hA.frames_get i hi
  rw [hf] at e1
  rw [hfr] at e2
  obtain rfl := Option.some.inj e1
  obtain rfl := Option.some.inj e2
  have hT := hA.setup.maxT i hi
  have hg := hA.graphs _ (List.mem_of_getElem? hf)
  have hfin : ∀ a ∈ (seqOf F B i).f.flatten, a.dst + 1 = (seqOf F B i).f.length → a.label = -1 :=
    fun a ha => (hg.final a ha).mpr
  refine ⟨_, _, _, partFlag p (seqOf F B i), outs_get L i hi, ?_, ?_, ?_, ?_, ?_, ?_⟩
  · exact decoded p _ hc hT (L i) (h1 i hi) hA.output _ (fun t _ ht => beam_ge p _ hA.search t ht) hfin
  · intro hm
    exact decoded p _ hc hT (L i) (h1 i hi) hA.output _ (fun t _ ht => beam_ge' p _ hA.search hm t ht) hfin
  · intro h
    unfold partFlag at h
    rw [Bool.and_eq_true] at h
    exact h.1
  · intro hap hno
    unfold partFlag
    rw [hap, Bool.true_and, Bool.not_eq_true']
    by_contra hseen
    have hseen : finalSeen p (seqOf F B i) = true := by simpa using hseen
    unfold finalSeen at hseen
    rw [decide_eq_true_eq] at hseen
    obtain ⟨a, k1, k2, k3⟩ := hseen
    have hn := hc.pos
    have k3 : alpha p (seqOf F B i) ((seqOf F B i).fr.length - 1) a.src ≠ ⊥ := by
      unfold alpha
      rw [search_part p _ _ _ (by omega)]; exact k3
    obtain ⟨pth, g1, g2, g3⟩ := alpha_path p _ _ _ k3 (by omega) (Or.inr (by omega))
    exact hno ⟨pth, a, g1, by omega, by rw [g3]; exact k3, k1, k2⟩
  · intro hap hl
    exact partial_accept p _ hc hT (L i) (h1 i hi) hA.output hA.search hap hl.size hfin hl.state hl.score hl.frame
      hl.last
  · intro h20
    exact short_used p _ hc hT (L i) (h1 i hi) hA.output hfin (by rw [hA.maxFrames_eq]; exact h20)

/-- The order of the insertions into the hash does not change the paths. -/
theorem intersectDensePruned_order (hA : ArgsOk p F B) (order order' : Nat → Nat → List Nat)
    (ho : ∀ t n, (order t n).Perm (List.range n)) (ho' : ∀ t n, (order' t n).Perm (List.range n)) :
    ∃ G G' res res', intersectDensePruned p order = some res ∧ intersectDensePruned p order' = some res' ∧
      Results p F B G res ∧ Results p F B G' res' ∧
      ∀ (i : Nat) (x x' : List (List (Arc S)) × List Int × List Nat), G[i]? = some x → G'[i]? = some x' →
        SamePaths x.1 x'.1 x.2.1 x'.2.1 x.2.2 x'.2.2 := by
  obtain ⟨L, h1, res, h2, h3⟩ := hA.run order ho
  obtain ⟨L', h1', res', h2', h3'⟩ := hA.run order' ho'
  refine ⟨_, _, res, res', h2, h2', h3, h3', ?_⟩
  intro i x x' hx hx'
  have hi : i < p.seqs := by
    have := (List.getElem?_eq_some_iff.mp hx).1
    simpa [outs] using this
  rw [outs_get L i hi] at hx
  rw [outs_get L' i hi] at hx'
  obtain rfl := Option.some.inj hx
  obtain rfl := Option.some.inj hx'
  exact same_paths p _ (hA.seq_ok i hi) (hA.setup.maxT i hi) (L i) (L' i) (h1 i hi) (h1' i hi)

end

end Verif.Fsa.Dp
