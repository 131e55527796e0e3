import Verif.Fsa.Intersect.Model
import Verif.Fsa.Batches.Lemmas
import Verif.Fsa.TopSort.Renumber

/-!
# `FsaVecCreator` lays out its FSAs
-/

namespace Verif.Fsa.Isect
open Verif.Ragged Verif.Util Verif.Fsa.Top Verif.Fsa.Bat
variable {W : Type}

theorem foldlM_inv {S X : Type} (f : S → X → Option S) (P : Nat → S → Prop) (l : List X) :
    ∀ (k : Nat) (s : S), P k s →
      (∀ (i : Nat) (x : X) (s : S), l[i]? = some x → P (k + i) s → ∃ s', f s x = some s' ∧ P (k + i + 1) s') →
      ∃ s', l.foldlM f s = some s' ∧ P (k + l.length) s' := by
  induction l with
  | nil =>
    intro k s h _
    exact ⟨s, rfl, h⟩
  | cons x l ih =>
    intro k s h hstep
    obtain ⟨s', h1, h2⟩ := hstep 0 x s rfl h
    obtain ⟨s'', h3, h4⟩ := ih (k + 1) s' h2 (by
      intro i y t hy ht
      have := hstep (i + 1) y t (by simpa using hy) (by rw [← Nat.add_assoc, Nat.add_right_comm]; exact ht)
      rw [← Nat.add_assoc, Nat.add_right_comm k i 1] at this
      exact this)
    refine ⟨s'', ?_, ?_⟩
    · rw [List.foldlM_cons, h1, Option.bind_eq_bind, Option.bind_some, h3]
    · rw [List.length_cons, ← Nat.add_assoc, Nat.add_right_comm]; exact h4

/-- The rows and the arc maps of an output. -/
def outOf (x : List (List (Arc W)) × List Int × List Int) : Out W :=
  ⟨x.1.length, psum (x.1.map List.length), x.1.flatten, x.2.1, x.2.2⟩

/-- What has been written into `row_splits2_` before the FSA `k` is. -/
structure Written (T : List (List (List (Arc W)))) (k : Nat) (sp2 : List (Option Nat)) : Prop where
  len : sp2.length = T.flatten.length + 1
  val : ∀ (r s : Nat) (f : List (List (Arc W))), T[r]? = some f → r < k →
    (s < f.length ∨ (r + 1 = k ∧ s ≤ f.length)) → sp2[off T r + s]? = some (some (lpos f s))

theorem writeStarts_step (T : List (List (List (Arc W)))) (k : Nat) (f : List (List (Arc W)))
    (hf : T[k]? = some f) (sp2 : List (Option Nat)) (h : Written T k sp2) :
    ∃ sp2', writeStarts (psum (T.map List.length)) sp2 k (psum (f.map List.length)) = some sp2' ∧
      Written T (k + 1) sp2' := by
  have hk := (List.getElem?_eq_some_iff.mp hf).1
  have hend : off T k + f.length ≤ T.flatten.length := by
    rw [← off_succ T k f hf, ← off_length T]
    exact off_mono T hk
  have hb : (psum (T.map List.length))[k]? = some (off T k) := flat_sp1 T k (by omega)
  have hlen : (psum (f.map List.length)).length = f.length + 1 := by rw [psum_length, List.length_map]
  refine ⟨sp2.take (off T k) ++ (psum (f.map List.length)).map some ++
    sp2.drop (off T k + (psum (f.map List.length)).length), ?_, ?_, ?_⟩
  · unfold writeStarts
    rw [hb, Option.bind_eq_bind, Option.bind_some, if_pos]
    rw [hlen, h.len]
    omega
  · rw [List.length_append, List.length_append, List.length_take, List.length_drop, List.length_map,
      h.len, hlen]
    omega
  · intro r s g hg hr hs
    have hlt : (sp2.take (off T k)).length = off T k := by rw [List.length_take, h.len]; omega
    by_cases hrk : r = k
    · subst hrk
      rw [hf] at hg
      obtain rfl := Option.some.inj hg
      have hs' : s ≤ f.length := by omega
      rw [List.append_assoc, List.getElem?_append_right (by omega), hlt, Nat.add_sub_cancel_left,
        List.getElem?_append_left (by rw [List.length_map, hlen]; omega), List.getElem?_map,
        psum_get _ _ (by rw [List.length_map]; exact hs')]
      rfl
    · have hrlt : r < k := by omega
      have hs' : s < g.length := by omega
      have : off T r + s < off T k := by
        have h1 := off_succ T r g hg
        have h2 := off_mono T (show r + 1 ≤ k by omega)
        omega
      rw [List.append_assoc, List.getElem?_append_left (by omega), List.getElem?_take, if_pos this]
      exact h.val r s g hg hrlt (Or.inl hs')

/-- What `row_splits2_` contains after `k` FSAs have been finalized. -/
structure Shifted (T : List (List (List (Arc W)))) (k : Nat) (sp2 : List (Option Nat)) : Prop where
  len : sp2.length = T.flatten.length + 1
  val : ∀ (r s : Nat) (f : List (List (Arc W))), T[r]? = some f →
    (s < f.length ∨ (r + 1 = T.length ∧ s ≤ f.length)) →
    sp2[off T r + s]? = some (some
      ((if r < k then ((T.map (fun f => f.flatten.length)).take r).sum else 0) + lpos f s))

theorem shiftStarts_step (T : List (List (List (Arc W)))) (k : Nat) (hk : k < T.length)
    (sp2 : List (Option Nat)) (h : Shifted T k sp2) :
    ∃ sp2', shiftStarts (psum (T.map List.length)) (psum (T.map (fun f => f.flatten.length))) T.length
      sp2 k = some sp2' ∧ Shifted T (k + 1) sp2' := by
  obtain ⟨f, hf⟩ : ∃ f, T[k]? = some f := ⟨_, List.getElem?_eq_getElem hk⟩
  have hend : off T k + f.length ≤ T.flatten.length := by
    rw [← off_succ T k f hf, ← off_length T]
    exact off_mono T hk
  have hb : (psum (T.map List.length))[k]? = some (off T k) := flat_sp1 T k (by omega)
  have he : (psum (T.map List.length))[k + 1]? = some (off T k + f.length) := flat_sp1_succ T k f hf
  have ho : (psum (T.map (fun f => f.flatten.length)))[k]? =
      some ((T.map (fun f => f.flatten.length)).take k).sum :=
    psum_get _ _ (by rw [List.length_map]; omega)
  obtain ⟨x, hx⟩ : ∃ x, sp2[off T k]? = some x :=
    ⟨_, List.getElem?_eq_getElem (show off T k < sp2.length by rw [h.len]; omega)⟩
  have hcond : x = some 0 ∨ f.length = 0 := by
    by_cases h0 : f.length = 0
    · exact Or.inr h0
    · left
      have := h.val k 0 f hf (Or.inl (by omega))
      rw [Nat.add_zero, hx] at this
      obtain rfl := Option.some.inj this
      simp [lpos]
  refine ⟨sp2.mapIdx (fun j x =>
      if off T k ≤ j ∧ j < off T k + (if k + 1 = T.length then f.length + 1 else f.length) then
        x.map (· + ((T.map (fun f => f.flatten.length)).take k).sum) else x), ?_, ?_, ?_⟩
  · unfold shiftStarts
    simp only [hb, he, ho, hx, Option.bind_eq_bind, Option.bind_some, Nat.add_sub_cancel_left,
      if_pos hcond]
  · rw [List.length_mapIdx, h.len]
  · intro r s g hg hs
    rw [List.getElem?_mapIdx, h.val r s g hg hs, Option.map_some]
    by_cases hrk : r = k
    · subst hrk
      rw [hf] at hg
      obtain rfl := Option.some.inj hg
      have : off T r ≤ off T r + s ∧
          off T r + s < off T r + (if r + 1 = T.length then f.length + 1 else f.length) := by
        split <;> omega
      rw [if_pos this, if_neg (Nat.lt_irrefl r), if_pos (Nat.lt_succ_self r)]
      simp [Nat.add_comm]
    · have hout : ¬ (off T k ≤ off T r + s ∧
          off T r + s < off T k + (if k + 1 = T.length then f.length + 1 else f.length)) := by
        have hr := (List.getElem?_eq_some_iff.mp hg).1
        rintro ⟨h1, h2⟩
        by_cases hlt : r < k
        · have h3 := off_succ T r g hg
          have h4 := off_mono T (show r + 1 ≤ k by omega)
          omega
        · have h3 := off_succ T k f hf
          have h4 := off_mono T (show k + 1 ≤ r by omega)
          rw [if_neg (by omega)] at h2
          omega
      rw [if_neg hout]
      by_cases hlt : r < k
      · rw [if_pos hlt, if_pos (by omega)]
      · rw [if_neg hlt, if_neg (by omega)]

theorem createVec_flat (R : List (List (List (Arc W)) × List Int × List Int)) (hR : R ≠ []) :
    createVec (R.map outOf) = some (flat (R.map Prod.fst)) := by
  have hT : R.map Prod.fst ≠ [] := by simpa using hR
  have e1 : (R.map outOf).map Out.numStates = (R.map Prod.fst).map List.length := by
    rw [List.map_map, List.map_map]; rfl
  have e2 : (R.map outOf).map (fun o => o.arcs.length) =
      (R.map Prod.fst).map (fun f => f.flatten.length) := by
    rw [List.map_map, List.map_map]; rfl
  have e3 : ((R.map outOf).map Out.arcs).flatten = (R.map Prod.fst).flatten.flatten := by
    rw [List.map_map, List.flatten_flatten, List.map_map]; rfl
  have e4 : (R.map outOf).length = (R.map Prod.fst).length := by rw [List.length_map, List.length_map]
  have hne : R.map outOf ≠ [] := by simpa using hR
  generalize hTd : R.map Prod.fst = T at *
  have htot : (psum (T.map List.length))[T.length]? = some T.flatten.length := by
    have := flat_sp1 T T.length (Nat.le_refl _)
    rw [off_length] at this
    exact this
  -- the starts
  have hw0 : Written T 0 (List.replicate (T.flatten.length + 1) none) := by
    refine ⟨by simp, ?_⟩
    intro r s f _ hr
    omega
  obtain ⟨sp2, hw, hW⟩ := foldlM_inv
    (fun sp2 (x : Out W × Nat) => writeStarts (psum (T.map List.length)) sp2 x.2 x.1.starts)
    (Written T) (R.map outOf).zipIdx 0 _ hw0 (by
      rintro i ⟨o, k⟩ s hx hs
      rw [List.getElem?_zipIdx, List.getElem?_map] at hx
      obtain ⟨o', ho', heq⟩ := Option.map_eq_some_iff.mp hx
      obtain ⟨x, hx', rfl⟩ := Option.map_eq_some_iff.mp ho'
      simp only [Prod.mk.injEq] at heq
      obtain ⟨rfl, rfl⟩ := heq
      have hf : T[0 + i]? = some x.1 := by
        rw [Nat.zero_add, ← hTd, List.getElem?_map, hx']; rfl
      exact writeStarts_step T (0 + i) x.1 hf s hs)
  rw [Nat.zero_add, List.length_zipIdx, e4] at hW
  -- the shifts
  have hs0 : Shifted T 0 sp2 := by
    refine ⟨hW.len, ?_⟩
    intro r s f hf hs
    rw [if_neg (Nat.not_lt_zero r), Nat.zero_add]
    exact hW.val r s f hf (List.getElem?_eq_some_iff.mp hf).1 hs
  obtain ⟨sp2', hsh, hS⟩ := foldlM_inv
    (shiftStarts (psum (T.map List.length)) (psum (T.map (fun f => f.flatten.length))) T.length)
    (Shifted T) (List.range T.length) 0 sp2 hs0 (by
      intro i x s hx hs
      obtain ⟨hlt, hx⟩ := List.getElem?_eq_some_iff.mp hx
      rw [List.getElem_range] at hx
      subst hx
      rw [List.length_range] at hlt
      rw [Nat.zero_add] at hs ⊢
      exact shiftStarts_step T i hlt s hs)
  rw [Nat.zero_add, List.length_range] at hS
  have hfin : sp2'.mapM id = some (flat T).sp2 := by
    refine mapM_some_of sp2' id (flat T).sp2 ?_ ?_
    · rw [hS.len]
      show (psum (T.flatten.map List.length)).length = _
      rw [psum_length, List.length_map]
    · intro i x hx
      have hi := (List.getElem?_eq_some_iff.mp hx).1
      rw [hS.len] at hi
      rw [flat_sp2 T i (by omega)]
      show x = _
      have key : ∀ (r s : Nat) (f : List (List (Arc W))), T[r]? = some f →
          (s < f.length ∨ (r + 1 = T.length ∧ s ≤ f.length)) → i = off T r + s → x = some (apos T i) := by
        intro r s f hf hs hi
        subst hi
        have := hS.val r s f hf hs
        rw [hx, if_pos (List.getElem?_eq_some_iff.mp hf).1] at this
        rw [Option.some.inj this, apos_local T r s f hf (by omega)]
      by_cases hlast : i = T.flatten.length
      · have hpos : 0 < T.length := List.length_pos_of_ne_nil hT
        obtain ⟨f, hf⟩ : ∃ f, T[T.length - 1]? = some f :=
          ⟨_, List.getElem?_eq_getElem (by omega)⟩
        refine key (T.length - 1) f.length f hf (Or.inr ⟨by omega, Nat.le_refl _⟩) ?_
        rw [← off_succ T _ f hf, hlast, ← off_length T]
        congr 1
        omega
      · obtain ⟨r, f, s, hf, hs, hi⟩ := state_pos T i (by omega)
        exact key r s f hf (Or.inl hs) hi
  have hid1 : rowSplitsToRowIds (psum (T.map List.length)) T.flatten.length = some (flat T).id1 := by
    have := rowSplitsToRowIds_psum (T.map List.length)
    rw [← List.length_flatten] at this
    exact this
  have hid2 : rowSplitsToRowIds (flat T).sp2 T.flatten.flatten.length = some (flat T).id2 := by
    have := rowSplitsToRowIds_psum (T.flatten.map List.length)
    rw [← List.length_flatten] at this
    exact this
  unfold createVec
  rw [if_neg hne]
  simp only [e1, e2, e3, e4, htot, hw, hsh, hfin, hid1, hid2, Option.bind_eq_bind, Option.bind_some]
  rfl

end Verif.Fsa.Isect
