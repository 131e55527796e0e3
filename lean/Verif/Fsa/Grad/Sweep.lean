import Verif.Fsa.Grad.Model
import Verif.Fsa.Scores.Fixed
import Mathlib.Algebra.BigOperators.Group.List.Basic

/-!
# What the loop over the batches of the back-propagation computes
-/

namespace Verif.Fsa.Grd
open Verif.Ragged Verif.Util Verif.Fsa.Bat Verif.Fsa.Sco
variable {W K : Type}

theorem batchArcs_eq (R : List (List Nat)) (C : List (List (List Nat))) (i : Nat) (b : List Nat)
    (hb : (C.map List.flatten)[i]? = some b) :
    ∃ pre post : List Nat, C.flatten.flatten = pre ++ (b ++ post) ∧
      batchArcs (fullLayers 2 (C : List (Nest Nat 2)))
        (psum ((rowsOf R C.flatten.flatten).map List.length), (rowsOf R C.flatten.flatten).flatten) i =
        some (pre.length, (pre ++ b).length, (rowsOf R pre).flatten.length, (rowsOf R b).flatten) := by
  have hil : i < C.length := by
    have := (List.getElem?_eq_some_iff.mp hb).1; simpa using this
  obtain ⟨pre, post, hC, hpl⟩ : ∃ pre post : List Nat, C.flatten.flatten = pre ++ (b ++ post) ∧
      pre = ((C.map List.flatten).take i).flatten := by
    refine ⟨((C.map List.flatten).take i).flatten, ((C.map List.flatten).drop (i + 1)).flatten, ?_, rfl⟩
    rw [List.flatten_flatten]
    conv_lhs => rw [← List.take_append_drop i (C.map List.flatten)]
    rw [List.flatten_append]
    congr 1
    obtain ⟨h1, h2⟩ := List.getElem?_eq_some_iff.mp hb
    rw [List.drop_eq_getElem_cons h1, h2, List.flatten_cons]
  refine ⟨pre, post, hC, ?_⟩
  have e1 : batchBegin (fullLayers 2 (C : List (Nest Nat 2))) i = some pre.length := by
    rw [batchBegin_eq C i (by omega), hpl]
  have e2 : batchBegin (fullLayers 2 (C : List (Nest Nat 2))) (i + 1) = some (pre ++ b).length := by
    rw [batchBegin_eq C (i + 1) (by omega), hpl, List.take_succ, hb]
    simp
  rw [hC]
  have hrows : rowsOf R (pre ++ (b ++ post)) = rowsOf R pre ++ (rowsOf R b ++ rowsOf R post) := by
    simp [rowsOf]
  have hpre : (rowsOf R pre).length = pre.length := by simp [rowsOf]
  have hbl : (rowsOf R b).length = b.length := by simp [rowsOf]
  have e3 : (psum ((rowsOf R (pre ++ (b ++ post))).map List.length))[pre.length]? =
      some (rowsOf R pre).flatten.length := by
    rw [psum_get _ _ (by rw [hrows]; simp; omega), sum_take, hrows, ← hpre, List.take_left]
  have e4 : (psum ((rowsOf R (pre ++ (b ++ post))).map List.length))[(pre ++ b).length]? =
      some ((rowsOf R pre).flatten.length + (rowsOf R b).flatten.length) := by
    rw [psum_get _ _ (by rw [hrows]; simp; omega), sum_take, hrows, List.length_append, ← hpre, ← hbl,
      List.take_length_add_append, List.take_left, List.flatten_append, List.length_append]
  have e5 : (List.range ((rowsOf R b).flatten.length)).mapM (fun k =>
      (rowsOf R (pre ++ (b ++ post))).flatten[(rowsOf R pre).flatten.length + k]?) = some (rowsOf R b).flatten := by
    apply mapM_some_of
    · rw [List.length_range]
    · intro k x hx
      obtain ⟨hlt', hx⟩ := List.getElem?_eq_some_iff.mp hx
      rw [List.getElem_range] at hx; subst hx
      rw [List.length_range] at hlt'
      rw [hrows, List.flatten_append, List.flatten_append, List.getElem?_append_right (by omega),
        Nat.add_sub_cancel_left, List.getElem?_append_left hlt']
  unfold batchArcs
  simp only [e1, e2, e3, e4, Option.bind_eq_bind, Option.bind_some, Nat.add_sub_cancel_left]
  rw [e5]
  rfl

theorem map_pair_fst {X : Type} (l : List Nat) (f : Nat → X) : (l.map (fun s => (s, f s))).map Prod.fst = l := by
  induction l with
  | nil => rfl
  | cons a l ih => rw [List.map_cons, List.map_cons, ih]

theorem zip_map_self {X : Type} (l : List Nat) (f : Nat → X) : l.zip (l.map f) = l.map (fun s => (s, f s)) := by
  induction l with
  | nil => rfl
  | cons a l ih => rw [List.map_cons, List.zip_cons_cons, ih, List.map_cons]

section
variable [AddCommMonoid K] [DecidableEq K]

theorem addAll_eq (b : List Nat) (hbn : b.Nodup) (cur : List K) (hlt : ∀ g ∈ b, g < cur.length) (sc : Nat → K) :
    ∃ out, addAll cur (b.map (fun s => (s, sc s))) = some out ∧ out.length = cur.length ∧
      (∀ g ∈ b, out[g]? = some (cur.getD g 0 + sc g)) ∧ ∀ g, g ∉ b → out[g]? = cur[g]? := by
  have e : (b.map (fun s => (s, sc s))).mapM (addTo cur) = some (b.map (fun s => (s, cur.getD s 0 + sc s))) := by
    apply mapM_some_of
    · simp
    · intro i w hw
      rw [List.getElem?_map] at hw ⊢
      cases hk : b[i]? with
      | none => rw [hk] at hw; simp at hw
      | some s =>
        rw [hk] at hw
        simp only [Option.map_some, Option.some.injEq] at hw
        subst hw
        have := hlt s (List.mem_of_getElem? hk)
        unfold addTo
        simp only [List.getElem?_eq_getElem this, Option.bind_eq_bind, Option.bind_some, Option.map_some,
          List.getD_eq_getElem?_getD, Option.getD_some]
  unfold addAll
  simp only [e, Option.bind_eq_bind, Option.bind_some]
  have hfst : (b.map (fun s => (s, cur.getD s 0 + sc s))).map Prod.fst = b := map_pair_fst b _
  obtain ⟨out, h1, h2, h3, h4⟩ := writeAll_eq cur (b.map (fun s => (s, cur.getD s 0 + sc s)))
    (by rw [hfst]; exact hbn) (by
      intro w hw
      obtain ⟨s, hs, rfl⟩ := List.mem_map.mp hw
      exact hlt s hs)
  rw [hfst] at h4
  exact ⟨out, h1, h2, fun g hg => h3 g _ (List.mem_map.mpr ⟨g, hg, rfl⟩), h4⟩

/-- One batch: every arc of its rows gets its value, every state of it the sum of its arcs on top. -/
theorem gradBatch_eq (arcGrad : List K → Nat → Option K) (R : List (List Nat)) (C : List (List (List Nat))) (i : Nat)
    (b : List Nat) (hb : (C.map List.flatten)[i]? = some b) (hbn : b.Nodup) (cur : List K) (ag : List (Option K))
    (hlt : ∀ g ∈ b, g < cur.length) (hrn : ((rowsOf R b).flatten).Nodup)
    (hrl : ∀ g ∈ b, ∀ j ∈ R.getD g [], j < ag.length) (val : Nat → K)
    (hval : ∀ g ∈ b, ∀ j ∈ R.getD g [], arcGrad cur j = some (val j)) :
    ∃ out ag', gradBatch arcGrad (fullLayers 2 (C : List (Nest Nat 2))) C.flatten.flatten
        (psum ((rowsOf R C.flatten.flatten).map List.length), (rowsOf R C.flatten.flatten).flatten) (cur, ag) i =
        some (out, ag') ∧ out.length = cur.length ∧ ag'.length = ag.length ∧
      (∀ g ∈ b, out[g]? = some (cur.getD g 0 + ((R.getD g []).map val).sum)) ∧
      (∀ g, g ∉ b → out[g]? = cur[g]?) ∧
      (∀ g ∈ b, ∀ j ∈ R.getD g [], ag'[j]? = some (some (val j))) ∧
      ∀ j, (∀ g ∈ b, j ∉ R.getD g []) → ag'[j]? = ag[j]? := by
  obtain ⟨pre, post, hC, e1⟩ := batchArcs_eq R C i b hb
  have hmem : ∀ j, j ∈ (rowsOf R b).flatten ↔ ∃ g ∈ b, j ∈ R.getD g [] := by
    intro j
    rw [List.mem_flatten]
    constructor
    · rintro ⟨row, hrow, hj⟩
      obtain ⟨g, hg, rfl⟩ := List.mem_map.mp hrow
      exact ⟨g, hg, hj⟩
    · rintro ⟨g, hg, hj⟩
      exact ⟨_, List.mem_map.mpr ⟨g, hg, rfl⟩, hj⟩
  have e2 : (rowsOf R b).flatten.mapM (arcGrad cur) = some ((rowsOf R b).flatten.map val) := by
    apply mapM_some_of
    · exact List.length_map ..
    · intro k j hj
      obtain ⟨g, hg, hjr⟩ := (hmem j).mp (List.mem_of_getElem? hj)
      rw [hval g hg j hjr, List.getElem?_map, hj]
      rfl
  have hz : (rowsOf R b).flatten.zip (((rowsOf R b).flatten.map val).map some) =
      (rowsOf R b).flatten.map (fun j => (j, some (val j))) := by
    rw [List.map_map]
    exact zip_map_self _ _
  have hfst : ((rowsOf R b).flatten.map (fun j => (j, some (val j)))).map Prod.fst = (rowsOf R b).flatten :=
    map_pair_fst _ _
  obtain ⟨ag', w1, w2, w3, w4⟩ := writeAll_eq ag ((rowsOf R b).flatten.map (fun j => (j, some (val j))))
    (by rw [hfst]; exact hrn) (by
      intro w hw
      obtain ⟨j, hj, rfl⟩ := List.mem_map.mp hw
      obtain ⟨g, hg, hjr⟩ := (hmem j).mp hj
      exact hrl g hg j hjr)
  have e6 := batchScores_eq (· + ·) (0 : K) R pre b post val
  obtain ⟨out, h1, h2, h3, h4⟩ := addAll_eq b hbn cur hlt (fun s => reduceRow (· + ·) 0 ((R.getD s []).map val))
  refine ⟨out, ag', ?_, h2, w2, ?_, h4, ?_, ?_⟩
  · unfold gradBatch
    rw [e1]
    simp only [Option.bind_eq_bind, Option.bind_some, e2, hz, w1]
    rw [hC]
    simp only [e6, Option.bind_some, h1]
  · intro g hg
    rw [h3 g hg]
    congr 2
    unfold reduceRow
    have : ∀ (l : List K) (x : K), l.foldl (fun val elem => elem + val) x = x + l.sum := by
      intro l
      induction l with
      | nil => intro x; simp
      | cons a l ih => intro x; rw [List.foldl_cons, ih, List.sum_cons, add_comm a x, add_assoc]
    rw [this, zero_add]
  · intro g hg j hj
    exact w3 j _ (List.mem_map.mpr ⟨j, (hmem j).mpr ⟨g, hg, hj⟩, rfl⟩)
  · intro j hj
    apply w4
    rw [hfst, hmem]
    rintro ⟨g, hg, hjr⟩
    exact hj g hg hjr

/-- The sweep: every state gets its derivative plus the sum over its arcs, every arc its value. -/
theorem grad_sweep (arcGrad : List K → Nat → Option K) (R : List (List Nat)) (C : List (List (List Nat))) (n M : Nat)
    (oth : Nat → Nat) (m : Nat → K → K) (init : List K)
    (hdis : ∀ g < n, ∀ g' < n, ∀ j, j ∈ R.getD g [] → j ∈ R.getD g' [] → g = g')
    (hrn : ∀ g < n, (R.getD g []).Nodup)
    (harc : ∀ g < n, ∀ j ∈ R.getD g [], j < M ∧ oth j < n ∧
      ∀ cur : List K, cur.length = n → arcGrad cur j = some (m j (cur.getD (oth j) 0))) :
    ∀ (is : List Nat) (P : List Nat) (cur : List K) (ag : List (Option K)),
      (∀ i ∈ is, i < C.length) →
      (P ++ (is.map (fun i => (C.map List.flatten).getD i [])).flatten).Nodup →
      (∀ g ∈ P ++ (is.map (fun i => (C.map List.flatten).getD i [])).flatten, g < n) →
      (∀ (is1 is2 : List Nat) (i : Nat), is = is1 ++ i :: is2 → ∀ g ∈ (C.map List.flatten).getD i [],
        ∀ j ∈ R.getD g [], oth j ∈ P ++ (is1.map (fun i => (C.map List.flatten).getD i [])).flatten) →
      cur.length = n → ag.length = M →
      (∀ g ∈ P, cur.getD g 0 = init.getD g 0 + ((R.getD g []).map (fun j => m j (cur.getD (oth j) 0))).sum) →
      (∀ g ∈ P, ∀ j ∈ R.getD g [], ag[j]? = some (some (m j (cur.getD (oth j) 0)))) →
      (∀ g ∈ P, ∀ j ∈ R.getD g [], oth j ∈ P) →
      (∀ g, g ∉ P → cur[g]? = init[g]?) →
      ∃ out ag', is.foldlM (gradBatch arcGrad (fullLayers 2 (C : List (Nest Nat 2)))
          C.flatten.flatten (psum ((rowsOf R C.flatten.flatten).map List.length),
            (rowsOf R C.flatten.flatten).flatten)) (cur, ag) = some (out, ag') ∧ out.length = n ∧ ag'.length = M ∧
        (∀ g ∈ P ++ (is.map (fun i => (C.map List.flatten).getD i [])).flatten,
          out.getD g 0 = init.getD g 0 + ((R.getD g []).map (fun j => m j (out.getD (oth j) 0))).sum) ∧
        (∀ g ∈ P ++ (is.map (fun i => (C.map List.flatten).getD i [])).flatten, ∀ j ∈ R.getD g [],
          ag'[j]? = some (some (m j (out.getD (oth j) 0)))) := by
  intro is
  induction is with
  | nil =>
    intro P cur ag _ _ _ _ hlen hal hP hA _ _
    exact ⟨cur, ag, rfl, hlen, hal, by simpa using hP, by simpa using hA⟩
  | cons i is ih =>
    intro P cur ag hi hnd hlt hdep hlen hal hP hA hcl hout
    have hil := hi i List.mem_cons_self
    have hb : (C.map List.flatten)[i]? = some ((C.map List.flatten).getD i []) := by
      rw [List.getD_eq_getElem?_getD, List.getElem?_eq_getElem (by simpa using hil)]; rfl
    generalize hbe : (C.map List.flatten).getD i [] = b at hb
    rw [List.map_cons, List.flatten_cons, hbe, ← List.append_assoc] at hnd hlt
    have hPb := (List.nodup_append.mp hnd).1
    obtain ⟨_, hbn, hdisj⟩ := List.nodup_append.mp hPb
    have hbl : ∀ g ∈ b, g < n := fun g hg => hlt g
      (List.mem_append_left _ (List.mem_append_right _ hg))
    have hPl : ∀ g ∈ P, g < n := fun g hg => hlt g
      (List.mem_append_left _ (List.mem_append_left _ hg))
    have hsrc : ∀ g ∈ b, ∀ j ∈ R.getD g [], oth j ∈ P := by
      intro g hg j hj
      have := hdep [] is i rfl g (by rw [hbe]; exact hg) j hj
      simpa using this
    have hrb : ((rowsOf R b).flatten).Nodup := by
      rw [List.nodup_flatten]
      constructor
      · intro row hrow
        obtain ⟨g, hg, rfl⟩ := List.mem_map.mp hrow
        exact hrn g (hbl g hg)
      · rw [rowsOf, List.pairwise_map]
        refine List.Pairwise.imp_of_mem ?_ hbn
        intro g g' hg hg' hne j hj hj'
        exact hne (hdis g (hbl g hg) g' (hbl g' hg') j hj hj')
    obtain ⟨out, ag1, h1, h2, h2', h3, h4, h5, h6⟩ := gradBatch_eq arcGrad R C i b hb hbn cur ag
      (by rw [hlen]; exact hbl) hrb (fun g hg j hj => by rw [hal]; exact (harc g (hbl g hg) j hj).1)
      (fun j => m j (cur.getD (oth j) 0)) (fun g hg j hj => (harc g (hbl g hg) j hj).2.2 cur hlen)
    have hsame : ∀ g, g ∉ b → out.getD g 0 = cur.getD g 0 := by
      intro g hg
      rw [List.getD_eq_getElem?_getD, List.getD_eq_getElem?_getD, h4 g hg]
    have hPnb : ∀ g ∈ P, g ∉ b := fun g hg hc => hdisj g hg g hc rfl
    obtain ⟨fin, ag2, g1, g2, g2', g3, g4⟩ := ih (P ++ b) out ag1 (fun i' hi' => hi i' (List.mem_cons_of_mem _ hi')) hnd
      hlt
      (by
        intro is1 is2 i' he g hg j hj
        have := hdep (i :: is1) is2 i' (by rw [he]; rfl) g hg j hj
        rw [List.map_cons, List.flatten_cons, hbe, ← List.append_assoc] at this
        exact this)
      (by omega) (by omega)
      (by
        intro g hg
        rcases List.mem_append.mp hg with hg | hg
        · rw [hsame g (hPnb g hg), hP g hg]
          congr 2
          apply List.map_congr_left
          intro j hj
          rw [hsame _ (hPnb _ (hcl g hg j hj))]
        · have hgP : g ∉ P := fun hc => hPnb g hc hg
          rw [List.getD_eq_getElem?_getD, h3 g hg, Option.getD_some]
          congr 1
          · rw [List.getD_eq_getElem?_getD, hout g hgP, List.getD_eq_getElem?_getD]
          · congr 1
            apply List.map_congr_left
            intro j hj
            rw [hsame _ (hPnb _ (hsrc g hg j hj))])
      (by
        intro g hg j hj
        rcases List.mem_append.mp hg with hg | hg
        · rw [h6 j (fun g' hg' hc => hPnb g hg (by
            rw [hdis g (hPl g hg) g' (hbl g' hg') j hj hc]; exact hg')), hA g hg j hj,
            hsame _ (hPnb _ (hcl g hg j hj))]
        · rw [h5 g hg j hj, hsame _ (hPnb _ (hsrc g hg j hj))])
      (by
        intro g hg j hj
        rcases List.mem_append.mp hg with hg | hg
        · exact List.mem_append_left _ (hcl g hg j hj)
        · exact List.mem_append_left _ (hsrc g hg j hj))
      (by
        intro g hg
        rw [List.mem_append, not_or] at hg
        rw [h4 g hg.2, hout g hg.1])
    rw [List.map_cons, List.flatten_cons, hbe, ← List.append_assoc]
    refine ⟨fin, ag2, ?_, g2, g2', g3, g4⟩
    rw [List.foldlM_cons, h1]
    exact g1

/-- The sweep over all batches. -/
theorem grad_all (arcGrad : List K → Nat → Option K)
    (T : List (List (List (Arc W)))) {B C : List (List (List Nat))} (hB : BatchSchedule T B) (hC : Exchanged B C)
    (R : List (List Nat)) (oth : Nat → Nat) (m : Nat → K → K) (init : List K) (hil : init.length = T.flatten.length)
    (hdis : ∀ g < T.flatten.length, ∀ g' < T.flatten.length, ∀ j, j ∈ R.getD g [] → j ∈ R.getD g' [] → g = g')
    (hrn : ∀ g < T.flatten.length, (R.getD g []).Nodup)
    (hcov : ∀ j < T.flatten.flatten.length, ∃ g < T.flatten.length, j ∈ R.getD g [])
    (harc : ∀ g < T.flatten.length, ∀ j ∈ R.getD g [], j < T.flatten.flatten.length ∧ oth j < T.flatten.length ∧
      ∀ cur : List K, cur.length = T.flatten.length → arcGrad cur j = some (m j (cur.getD (oth j) 0)))
    (is : List Nat) (his : is.Perm (List.range C.length)) (rel : Nat → Nat → Prop)
    (hasym : ∀ a b, rel a b → ¬ rel b a) (hpw : is.Pairwise rel)
    (hdep : ∀ g < T.flatten.length, ∀ j ∈ R.getD g [], ∀ k k', InBatch B k g → InBatch B k' (oth j) → rel k' k) :
    ∃ (D : Nat → K) (st : List K × List (Option K)) (ans : List K),
      is.foldlM (gradBatch arcGrad (fullLayers 2 (C : List (Nest Nat 2)))
          C.flatten.flatten (psum ((rowsOf R C.flatten.flatten).map List.length),
            (rowsOf R C.flatten.flatten).flatten)) (init, List.replicate T.flatten.flatten.length none) = some st ∧
      st.2.mapM id = some ans ∧ ans.length = T.flatten.flatten.length ∧
      (∀ g < T.flatten.length, D g = init.getD g 0 + ((R.getD g []).map (fun j => m j (D (oth j)))).sum) ∧
      ∀ j < T.flatten.flatten.length, ans[j]? = some (m j (D (oth j))) := by
  have hmem : ∀ (l : List Nat) (g : Nat), g ∈ (l.map (fun i => (C.map List.flatten).getD i [])).flatten ↔
      ∃ i ∈ l, InBatch B i g := by
    intro l g
    rw [List.mem_flatten]
    constructor
    · rintro ⟨b, hb, hg⟩
      obtain ⟨i, hi, rfl⟩ := List.mem_map.mp hb
      exact ⟨i, hi, (mem_batch hC i g).mp hg⟩
    · rintro ⟨i, hi, hg⟩
      exact ⟨_, List.mem_map.mpr ⟨i, hi, rfl⟩, (mem_batch hC i g).mpr hg⟩
  have hin : ∀ k g, InBatch B k g → k ∈ is := by
    intro k g h
    exact his.mem_iff.mpr (List.mem_range.mpr (inBatch_lt_C hB hC h))
  obtain ⟨out, ag, h1, h2, h2', h3, h4⟩ := grad_sweep arcGrad R C T.flatten.length T.flatten.flatten.length oth m init
    hdis hrn harc is [] init (List.replicate T.flatten.flatten.length none)
    (fun i hi => List.mem_range.mp (his.mem_iff.mp hi))
    (by
      rw [List.nil_append]
      exact batches_nodup hB hC is (his.nodup_iff.mpr List.nodup_range))
    (by
      intro g hg
      obtain ⟨i, _, hg⟩ := (hmem is g).mp hg
      exact inBatch_lt hB hg)
    (by
      intro is1 is2 i he g hg j hj
      have hg' := (mem_batch hC i g).mp hg
      have hgl := inBatch_lt hB hg'
      obtain ⟨k', hk'⟩ := inBatch_exists hB (oth j) (harc g hgl j hj).2.1
      rw [List.nil_append, hmem]
      exact ⟨k', before_mem hpw hasym he (hin _ _ hk') (hdep g hgl j hj i k' hg' hk'), hk'⟩)
    hil (by simp) (by simp) (by simp) (by simp) (by simp)
  have hall : ∀ g < T.flatten.length, g ∈ [] ++ (is.map (fun i => (C.map List.flatten).getD i [])).flatten := by
    intro g hg
    rw [List.nil_append, hmem]
    obtain ⟨k, hk⟩ := inBatch_exists hB g hg
    exact ⟨k, hin _ _ hk, hk⟩
  have hag : ∀ j < T.flatten.flatten.length, ag[j]? = some (some (m j (out.getD (oth j) 0))) := by
    intro j hj
    obtain ⟨g, hg, hjr⟩ := hcov j hj
    exact h4 g (hall g hg) j hjr
  refine ⟨(out.getD · 0), (out, ag), (List.range T.flatten.flatten.length).map (fun j => m j (out.getD (oth j) 0)), h1, ?_,
    by simp, ?_, ?_⟩
  · apply mapM_some_of
    · simp [h2']
    · intro j x hx
      have hj := (List.getElem?_eq_some_iff.mp hx).1
      rw [h2'] at hj
      rw [hag j hj] at hx
      rw [List.getElem?_map, List.getElem?_range hj, ← Option.some.inj hx]
      rfl
  · intro g hg
    exact h3 g (hall g hg)
  · intro j hj
    rw [List.getElem?_map, List.getElem?_range hj]
    rfl
end

end Verif.Fsa.Grd
