import Verif.Fsa.Shortest.Sweep

/-!
# Forward scores and entering arcs of a vector of FSAs
-/

namespace Verif.Fsa.Best
open Verif.Ragged Verif.Util Verif.Fsa.Bat Verif.Fsa.Sco Verif.Fsa.Top
variable {W K : Type} [LinearOrder K] [OrderBot K]

/-- The sweep over all batches. -/
theorem sweepBest_vec (mul : K → W → K)
    (T : List (List (List (Arc W)))) {B C : List (List (List Nat))} (hB : BatchSchedule T B) (hC : Exchanged B C)
    (R : List (List Nat)) (oth : Nat → Nat) (keep : Nat → Option Bool) (other : Nat → Option Nat)
    (kp : Nat → Bool) (init : List K) (hil : init.length = T.flatten.length)
    (hkeep : ∀ g < T.flatten.length, keep g = some (kp g))
    (harc : ∀ g < T.flatten.length, ∀ j ∈ R.getD g [], j < T.flatten.flatten.length ∧ other j = some (oth j) ∧
      oth j < T.flatten.length)
    (hdep : ∀ g < T.flatten.length, ∀ j ∈ R.getD g [], ∀ k k', InBatch B k g → InBatch B k' (oth j) → k' < k) :
    ∃ out ent, (List.range C.length).foldlM (fun st i => sweepBest (flat T) mul ⊥ other keep
          (fullLayers 2 (C : List (Nest Nat 2)))
          C.flatten.flatten (psum ((rowsOf R C.flatten.flatten).map List.length),
            (rowsOf R C.flatten.flatten).flatten) st i) (init, List.replicate T.flatten.length none) = some (out, ent) ∧
        (List.range C.length).foldlM (fun cur i => sweepBatch (flat T) mul max ⊥ other keep
          (fullLayers 2 (C : List (Nest Nat 2)))
          C.flatten.flatten (psum ((rowsOf R C.flatten.flatten).map List.length),
            (rowsOf R C.flatten.flatten).flatten) cur i) init = some out ∧ ent.length = T.flatten.length ∧
        (∀ g < T.flatten.length, ∃ e, ent[g]? = some e ∧
          ArgOk (R.getD g []) (fun j => arcExt mul T (out.getD (oth j) ⊥) j) e) := by
  have hmem : ∀ (l : List Nat) (g : Nat), g ∈ (l.map (fun i => (C.map List.flatten).getD i [])).flatten ↔
      ∃ i ∈ l, InBatch B i g := by
    intro l g
    rw [List.mem_flatten]
    constructor
    · rintro ⟨b, hb, hg⟩
      obtain ⟨i, hi, rfl⟩ := List.mem_map.mp hb
      exact ⟨i, hi, (mem_batch hC i g).mp hg⟩
    · rintro ⟨i, hi, hg⟩
      exact ⟨_, List.mem_map.mpr ⟨i, hi, rfl⟩, (mem_batch hC i g).mpr hg⟩
  have hin : ∀ k g, InBatch B k g → k ∈ List.range C.length := by
    intro k g h
    exact List.mem_range.mpr (inBatch_lt_C hB hC h)
  obtain ⟨out, ent, h1, h2, h3, h4⟩ := sweepBest_all (flat T) mul other keep R C T.flatten.length oth (arcExt mul T) kp
    hkeep (by
      intro g hg j hj
      obtain ⟨h1, h2, h3⟩ := harc g hg j hj
      have e : (flat T).arcs[j]? = some (T.flatten.flatten[j]) := List.getElem?_eq_getElem h1
      refine ⟨_, e, ?_, h2, h3⟩
      intro x
      unfold arcExt
      rw [List.getElem?_eq_getElem h1]) (List.range C.length) [] init (List.replicate T.flatten.length none)
    (fun i hi => List.mem_range.mp hi)
    (by
      rw [List.nil_append]
      exact batches_nodup hB hC _ List.nodup_range)
    (by
      intro g hg
      obtain ⟨i, _, hg⟩ := (hmem _ g).mp hg
      exact inBatch_lt hB hg)
    (by
      intro is1 is2 i he g hg j hj
      have hg' := (mem_batch hC i g).mp hg
      have hgl := inBatch_lt hB hg'
      obtain ⟨k', hk'⟩ := inBatch_exists hB (oth j) (harc g hgl j hj).2.2
      rw [List.nil_append, hmem]
      exact ⟨k', before_mem List.pairwise_lt_range (fun a b h => by omega) he (hin _ _ hk')
        (hdep g hgl j hj i k' hg' hk'), hk'⟩)
    hil (by simp) (by simp) (by simp)
  refine ⟨out, ent, h1, h2, h3, ?_⟩
  intro g hg
  apply h4
  rw [List.nil_append, hmem]
  obtain ⟨k, hk⟩ := inBatch_exists hB g hg
  exact ⟨k, hin _ _ hk, hk⟩

/-- `e` is the best arc into state `s` of FSA `f`, if there is one; `e` is the position in `f`. -/
def BestArc (mul : K → W → K) (f : List (List (Arc W))) (F : Nat → K) (s : Nat) (e : Option Nat) : Prop :=
  (e = none → ∀ a ∈ f.flatten, a.dst ≠ s) ∧
  ∀ k, e = some k → ∃ a, f.flatten[k]? = some a ∧ a.dst = s ∧
    ∀ a' ∈ f.flatten, a'.dst = s → mul (F a'.src) a'.score ≤ mul (F a.src) a.score

variable (mul : K → W → K) (one : K) (T : List (List (List (Arc W)))) (hT : VecOk T)
  (hn : T.flatten.length ≤ intMax) (hfw : ∀ f ∈ T, ∀ a ∈ f.flatten, a.src < a.dst)
include hT hn hfw

theorem forwardBest_spec : ∃ out ent, (∀ lp0, forwardBest lp0 mul ⊥ one (flat T) = some (out, ent)) ∧
    (∀ lp0, forwardScores lp0 mul max ⊥ one (flat T) = some out) ∧
    out.length = T.flatten.length ∧ ent.length = T.flatten.length ∧
    ∀ (r : Nat) (f : List (List (Arc W))), T[r]? = some f →
      ForwardEq mul max ⊥ one f (fun s => out.getD (off T r + s) ⊥) ∧
      ∀ s < f.length, ∃ e, ent[off T r + s]? = some (e.map (base T r + ·)) ∧
        BestArc mul f (fun s => out.getD (off T r + s) ⊥) s e := by
  obtain ⟨B, C, dest, R, hB, hC, hsb, hde, hent, hRget, harc, hdep⟩ := entering_setup T hT hn hfw
  obtain ⟨out0, o1, o2, o3⟩ := forward_fixed mul max ⊥ one reduceRow_max_perm T hT hn hfw
  obtain ⟨init, hi1, hi2, hi3⟩ := initScores_eq T (⊥ : K) one (fun b _ => b) (fun b e h => ⟨le_refl _, h⟩)
  obtain ⟨out, ent, h1, h2, h3, h4⟩ := sweepBest_vec mul T hB hC R (srcOf T) (isStart (flat T)) (srcState (flat T))
    (fun g => (isStart (flat T) g).getD false) init hi2 (by
      intro g hg
      obtain ⟨r, f, s, hf, hs, rfl⟩ := state_pos T g hg
      rw [isStart_eq T r s f hf hs]; rfl) harc hdep
  have hfs : forwardScores 0 mul max ⊥ one (flat T) = some out := by
    unfold forwardScores
    simp only [hsb 0, hent, hi1, Option.bind_eq_bind, Option.bind_some]
    rw [numBatches_eq C]
    exact h2
  rw [o1 0] at hfs
  obtain rfl := Option.some.inj hfs
  refine ⟨out0, ent, ?_, o1, o2, h3, fun r f hf => ⟨o3 r f hf, ?_⟩⟩
  · intro lp0
    unfold forwardBest
    simp only [hsb lp0, hent, hi1, Option.bind_eq_bind, Option.bind_some]
    rw [numBatches_eq C, flat_id1_length]
    exact h1
  · intro s hs
    have hg := off_lt T r s f hf hs
    obtain ⟨e, k1, k2, k3⟩ := h4 _ hg
    rw [hRget _ hg] at k2 k3
    have hval : ∀ k a, f.flatten[k]? = some a →
        arcExt mul T (out0.getD (srcOf T (base T r + k)) ⊥) (base T r + k) =
          mul (out0.getD (off T r + a.src) ⊥) a.score := by
      intro k a ha
      obtain ⟨_, h4, h5, _⟩ := arc_local T hT dest hde r k f a hf ha
      rw [h5]
      unfold arcExt
      rw [h4]
    cases e with
    | none =>
      refine ⟨none, k1, ?_, by simp⟩
      intro _ a ha hd
      obtain ⟨k, hk⟩ := List.getElem?_of_mem ha
      have := (entering_mem T hT dest hde r s f hf hs (base T r + k)).mpr ⟨k, a, hk, by simpa using hd, rfl⟩
      rw [k2 rfl] at this
      simp at this
    | some j =>
      obtain ⟨hj, hm⟩ := k3 j rfl
      obtain ⟨k, a, ha, hd, rfl⟩ := (entering_mem T hT dest hde r s f hf hs j).mp hj
      refine ⟨some k, k1, by simp, ?_⟩
      intro k' hk'
      obtain rfl := Option.some.inj hk'
      refine ⟨a, ha, of_decide_eq_true hd, ?_⟩
      intro a' ha' hd'
      obtain ⟨i, hi⟩ := List.getElem?_of_mem ha'
      have := hm (base T r + i) ((entering_mem T hT dest hde r s f hf hs _).mpr ⟨i, a', hi, by simpa using hd', rfl⟩)
      simp only [hval i a' hi, hval k a ha] at this
      exact this

end Verif.Fsa.Best
