import Verif.Fsa.Grad.Split

/-!
# What `BackpropGetArcPost` returns
-/

namespace Verif.Fsa.Grd
open Verif.Ragged Verif.Util Verif.Fsa.Top Verif.Fsa.Bat Verif.Fsa.Sco
variable {W K : Type}

section
variable [Field K]

theorem take_sum (vals : List K) (lo n : Nat) :
    ((vals.drop lo).take n).sum = ((List.range' lo n).map (fun i => vals.getD i 0)).sum := by
  induction n generalizing lo with
  | zero => simp
  | succ n ih =>
    rw [List.range'_succ, List.map_cons, List.sum_cons, ← ih]
    by_cases h : lo < vals.length
    · rw [List.drop_eq_getElem_cons h, List.take_succ_cons, List.sum_cons, List.getD_eq_getElem?_getD,
        List.getElem?_eq_getElem h]
      rfl
    · rw [List.drop_eq_nil_of_le (by omega), List.drop_eq_nil_of_le (by omega), List.getD_eq_getElem?_getD,
        List.getElem?_eq_none (by omega)]
      simp

theorem sumRows_eq (sp : List Nat) (vals : List K) :
    ∃ out, sumRows sp vals = some out ∧ out.length = sp.length - 1 ∧
      ∀ (r lo hi : Nat), sp[r]? = some lo → sp[r + 1]? = some hi →
        out[r]? = some ((List.range' lo (hi - lo)).map (fun i => vals.getD i 0)).sum := by
  obtain ⟨out, h⟩ : ∃ out, sumRows sp vals = some out := by
    apply mapM_exists
    intro r hr
    have hr := List.mem_range.mp hr
    rw [List.getElem?_eq_getElem (by omega : r < sp.length), List.getElem?_eq_getElem (by omega : r + 1 < sp.length)]
    exact ⟨_, rfl⟩
  refine ⟨out, h, by rw [(mapM_get h).1, List.length_range], ?_⟩
  intro r lo hi h1 h2
  have hr := (List.getElem?_eq_some_iff.mp h2).1
  rw [(mapM_get h).2 r r (List.getElem?_range (by omega)), h1, h2, ← take_sum, ← reduceRow_add]
  rfl

variable (T : List (List (List (Arc W)))) (hT : VecOk T) (hfw : ∀ f ∈ T, ∀ a ∈ f.flatten, a.src < a.dst)
  (c : List K) (hc : c.length = T.flatten.flatten.length)

/-- The sum of the derivatives of the arcs of FSA `r` with a property. -/
def arcSum (c : List K) (T : List (List (List (Arc W)))) (r : Nat) (f : List (List (Arc W))) (p : Arc W → Bool) : K :=
  ((f.flatten.zipIdx.filter (fun x => p x.1)).map (fun x => c.getD (base T r + x.2) 0)).sum

include hT hc in
theorem backpropArcPost_eq :
    ∃ fw bw, backpropArcPost (flat T) c = some (fw, bw) ∧ fw.length = T.flatten.length ∧
      bw.length = T.flatten.length ∧
      ∀ (r s : Nat) (f : List (List (Arc W))), T[r]? = some f → s < f.length →
        fw[off T r + s]? = some (if s + 1 = f.length then -(1 / 2) * arcSum c T r f (fun _ => true) else
          arcSum c T r f (fun a => decide (a.src = s))) ∧
        bw[off T r + s]? = some (if s = 0 then -(1 / 2) * arcSum c T r f (fun _ => true) else
          arcSum c T r f (fun a => decide (a.dst = s))) := by
  obtain ⟨dest, hde, hdl, _⟩ := destStates_spec T hT
  have hloc := arc_local T hT dest hde
  have hvlt : ∀ v ∈ dest, v < T.flatten.length := by
    intro v hv
    obtain ⟨j, hj⟩ := List.getElem?_of_mem hv
    have hjl := (List.getElem?_eq_some_iff.mp hj).1
    rw [hdl] at hjl
    obtain ⟨r, f, k, a, h1, h2, rfl⟩ := arc_global T j hjl
    obtain ⟨_, _, _, h4, h5, h6⟩ := hloc r k f a h1 h2
    rw [h4] at hj
    rw [← Option.some.inj hj]
    exact off_lt T r _ f h1 h6
  have hinc := incomingArcs_eq dest T.flatten.length hvlt
  have hs1 := flat_sp1_length T
  have hs2 : (flat T).sp2.length = T.flatten.length + 1 := by
    show (psum (T.flatten.map List.length)).length = _
    rw [psum_length, List.length_map]
  -- the three sums
  obtain ⟨fw, a1, a2, a3⟩ := sumRows_eq (flat T).sp2 c
  have hfwv : ∀ (r s : Nat) (f : List (List (Arc W))), T[r]? = some f → s < f.length →
      fw[off T r + s]? = some (arcSum c T r f (fun a => decide (a.src = s))) := by
    intro r s f hf hs
    have hg := off_lt T r s f hf hs
    have e := state_at T r s f hf hs
    rw [List.getElem?_eq_getElem hs] at e
    rw [a3 _ _ _ (flat_sp2 T _ (by omega)) (flat_sp2_succ T _ _ e), Nat.add_sub_cancel_left, arcSum,
      ((row_perm T r f _ (List.nodup_range' ..) (fun a => decide (a.src = s))
        (leaving_mem T hT r s f hf _ (List.getElem?_eq_getElem hs))).map (fun i => c.getD i 0)).sum_eq, List.map_map]
    rfl
  obtain ⟨gi, b0⟩ : ∃ gi, (buckets dest T.flatten.length).flatten.mapM (fun j => c[j]?) = some gi := by
    apply mapM_exists
    intro j hj
    obtain ⟨b, hb, hjb⟩ := List.mem_flatten.mp hj
    obtain ⟨v, _, rfl⟩ := List.mem_map.mp hb
    have := (List.getElem?_eq_some_iff.mp ((positions_mem dest v j).mp hjb)).1
    rw [hdl] at this
    exact ⟨_, List.getElem?_eq_getElem (by omega)⟩
  obtain ⟨bw, b1, b2, b3⟩ := sumRows_eq (psum ((buckets dest T.flatten.length).map List.length)) gi
  have hbl : (buckets dest T.flatten.length).length = T.flatten.length := by simp [buckets]
  have hbwv : ∀ (r s : Nat) (f : List (List (Arc W))), T[r]? = some f → s < f.length →
      bw[off T r + s]? = some (arcSum c T r f (fun a => decide (a.dst = s))) := by
    intro r s f hf hs
    have hg := off_lt T r s f hf hs
    set ls := (buckets dest T.flatten.length).map List.length with hls
    have hlsl : ls.length = T.flatten.length := by rw [hls, List.length_map, hbl]
    have e1 : (buckets dest T.flatten.length)[off T r + s]? = some (positions dest 0 (off T r + s)) := by
      rw [buckets, List.getElem?_map, List.getElem?_range hg]; rfl
    have e2 := psum_get ls (off T r + s) (by omega)
    have e3 := psum_get ls (off T r + s + 1) (by omega)
    have e4 : ls[off T r + s]? = some (positions dest 0 (off T r + s)).length := by
      rw [hls, List.getElem?_map, e1]; rfl
    have e5 : (ls.take (off T r + s + 1)).sum =
        (ls.take (off T r + s)).sum + (positions dest 0 (off T r + s)).length := by
      have := (List.getElem?_eq_some_iff.mp e4)
      rw [List.take_add_one, e4, List.sum_append]; simp
    rw [b3 _ _ _ e2 e3, e5, Nat.add_sub_cancel_left, arcSum]
    have hp := row_perm T r f (positions dest 0 (off T r + s)) (positions_nodup _ _) (fun a => decide (a.dst = s))
      (entering_mem T hT dest hde r s f hf hs)
    have e6 := (hp.map (fun i => c.getD i 0)).sum_eq
    rw [List.map_map] at e6
    refine congrArg some (Eq.trans ?_ e6)
    congr 1
    apply List.ext_getElem
    · simp
    · intro i h1 h2
      rw [List.length_map] at h2
      have h3 := flatten_get (buckets dest T.flatten.length) (off T r + s) _ e1 i h2
      have h4 := (mapM_get b0).2 _ _ (h3.trans (List.getElem?_eq_getElem h2))
      have h5 : splits (buckets dest T.flatten.length) (off T r + s) = (ls.take (off T r + s)).sum := by
        rw [splits, hls, List.map_take]
      rw [h5] at h4
      simp only [List.getElem_map, List.getElem_range', one_mul, List.getD_eq_getElem?_getD, h4]
  obtain ⟨sp, d0⟩ : ∃ sp, (flat T).sp1.mapM (fun i => (flat T).sp2[i]?) = some sp := by
    apply mapM_exists
    intro x hx
    obtain ⟨i, hi⟩ := List.getElem?_of_mem hx
    have hil := (List.getElem?_eq_some_iff.mp hi).1
    rw [flat_sp1 T i (by omega)] at hi
    have : off T i ≤ T.flatten.length := by
      rw [List.length_flatten, off]
      exact List.Sublist.sum_le_sum (List.take_sublist _ _) (by simp)
    rw [← Option.some.inj hi]
    exact ⟨_, flat_sp2 T _ this⟩
  have hspv : ∀ r ≤ T.length, sp[r]? = some (base T r) := by
    intro r hr
    rw [(mapM_get d0).2 r _ (flat_sp1 T r hr)]
    by_cases h : r < T.length
    · have hf := List.getElem?_eq_getElem h
      have ho := apos_local T r 0 _ hf (by omega)
      have hle : off T r ≤ T.flatten.length := by
        rw [List.length_flatten, off]
        exact List.Sublist.sum_le_sum (List.take_sublist _ _) (by simp)
      rw [flat_sp2 T _ hle]
      simp only [Nat.add_zero, lpos, List.take_zero, List.sum_nil] at ho
      rw [ho]; rfl
    · obtain rfl : r = T.length := by omega
      have e1 : off T T.length = T.flatten.length := by
        rw [off, List.take_of_length_le (by simp), List.length_flatten]
      rw [e1, flat_sp2 T _ (le_refl _), apos, base, List.take_of_length_le (by rw [List.length_map]),
        List.take_of_length_le (by rw [List.length_map]), ← List.length_flatten, List.flatten_flatten, List.length_flatten, List.map_map]
      rfl
  obtain ⟨tot, f1, f2, f3⟩ := sumRows_eq sp c
  have hspl : sp.length = T.length + 1 := by rw [(mapM_get d0).1, hs1]
  have htot : ∀ (r : Nat) (f : List (List (Arc W))), T[r]? = some f →
      tot[r]? = some (arcSum c T r f (fun _ => true)) := by
    intro r f hf
    have hr := (List.getElem?_eq_some_iff.mp hf).1
    have hb : base T (r + 1) = base T r + f.flatten.length := by
      rw [base, base, List.take_add_one, List.getElem?_map, hf, List.sum_append]; simp
    rw [f3 r _ _ (hspv r (by omega)) (hspv (r + 1) (by omega)), hb, Nat.add_sub_cancel_left, arcSum]
    have hp := row_perm T r f (List.range' (base T r) f.flatten.length) (List.nodup_range' ..) (fun _ => true) (by
      intro j
      rw [List.mem_range'_1]
      constructor
      · intro h
        have hk : j - base T r < f.flatten.length := by omega
        exact ⟨j - base T r, _, List.getElem?_eq_getElem hk, rfl, by omega⟩
      · rintro ⟨k, a, h1, _, rfl⟩
        have := (List.getElem?_eq_some_iff.mp h1).1
        omega)
    rw [(hp.map (fun i => c.getD i 0)).sum_eq, List.map_map]
    rfl
  -- the start and final states
  set E : Nat → List (Nat × Nat × K) := fun r => if (T.getD r []).length = 0 then [] else
    [(off T r, off T r + ((T.getD r []).length - 1), -(1 / 2) * arcSum c T r (T.getD r []) (fun _ => true))] with hE
  have hends : (List.range ((flat T).sp1.length - 1)).mapM (endDeriv (flat T) tot) =
      some ((List.range T.length).map E) := by
    rw [hs1, Nat.add_sub_cancel]
    apply mapM_some_of
    · simp
    · intro i r hi
      have hr := List.mem_range.mp (List.mem_of_getElem? hi)
      have hf := List.getElem?_eq_getElem hr
      have hd : T.getD r [] = T[r] := by rw [List.getD_eq_getElem?_getD, hf]; rfl
      have e1 := flat_sp1 T r (by omega)
      have e2 := flat_sp1_succ T r _ hf
      rw [List.getElem?_map, hi]
      unfold endDeriv
      simp only [e1, e2, htot r _ hf, Option.bind_eq_bind, Option.bind_some, Option.map_some, hE, hd]
      by_cases h0 : T[r].length = 0
      · rw [if_neg (by omega), if_pos h0]
      · rw [if_pos (by omega), if_neg h0, Nat.add_sub_assoc (by omega)]
  have hmemE : ∀ x, x ∈ ((List.range T.length).map E).flatten ↔ ∃ (r : Nat) (f : List (List (Arc W))),
      T[r]? = some f ∧ 0 < f.length ∧
      x = (off T r, off T r + (f.length - 1), -(1 / 2) * arcSum c T r f (fun _ => true)) := by
    intro x
    rw [List.mem_flatten]
    constructor
    · rintro ⟨l, hl, hx⟩
      obtain ⟨r, hr, rfl⟩ := List.mem_map.mp hl
      have hr := List.mem_range.mp hr
      have hf := List.getElem?_eq_getElem hr
      have hd : T.getD r [] = T[r] := by rw [List.getD_eq_getElem?_getD, hf]; rfl
      simp only [hE, hd] at hx
      split at hx
      · simp at hx
      · exact ⟨r, _, hf, by omega, List.mem_singleton.mp hx⟩
    · rintro ⟨r, f, hf, h0, rfl⟩
      have hr := (List.getElem?_eq_some_iff.mp hf).1
      have hd : T.getD r [] = f := by rw [List.getD_eq_getElem?_getD, hf]; rfl
      refine ⟨E r, List.mem_map.mpr ⟨r, List.mem_range.mpr hr, rfl⟩, ?_⟩
      simp only [hE, hd]
      rw [if_neg (by omega)]
      simp
  have hnd : ∀ q : Nat × Nat × K → Nat,
      (∀ (r r' : Nat) (f f' : List (List (Arc W))), T[r]? = some f → T[r']? = some f' → 0 < f.length → 0 < f'.length →
        ∀ x x', q (off T r, off T r + (f.length - 1), x) = q (off T r', off T r' + (f'.length - 1), x') → r = r') →
      ((((List.range T.length).map E).flatten).map q).Nodup := by
    intro q hq
    rw [List.map_flatten, List.map_map, ← List.flatMap_def, List.nodup_flatMap]
    constructor
    · intro r _
      simp only [hE, Function.comp]
      split <;> simp
    · refine List.nodup_range.pairwise_of_forall_ne ?_
      intro r hr r' hr' hne j hj hj'
      have hr := List.mem_range.mp hr
      have hr' := List.mem_range.mp hr'
      have hf := List.getElem?_eq_getElem hr
      have hf' := List.getElem?_eq_getElem hr'
      have hd : T.getD r [] = T[r] := by rw [List.getD_eq_getElem?_getD, hf]; rfl
      have hd' : T.getD r' [] = T[r'] := by rw [List.getD_eq_getElem?_getD, hf']; rfl
      simp only [Function.comp, hE, hd, hd'] at hj hj'
      split at hj
      · simp at hj
      · split at hj'
        · simp at hj'
        · rw [List.map_singleton, List.mem_singleton] at hj hj'
          exact hne (hq r r' _ _ hf hf' (by omega) (by omega) _ _ (hj.symm.trans hj'))
  have hfwl : fw.length = T.flatten.length := by omega
  have hbwl : bw.length = T.flatten.length := by rw [b2, psum_length, List.length_map, hbl]; omega
  set ws1 := (((List.range T.length).map E).flatten).map (fun x => (x.2.1, x.2.2)) with hws1
  set ws2 := (((List.range T.length).map E).flatten).map (fun x => (x.1, x.2.2)) with hws2
  have hm1 : ∀ g x, (g, x) ∈ ws1 ↔ ∃ (r : Nat) (f : List (List (Arc W))), T[r]? = some f ∧ 0 < f.length ∧
      g = off T r + (f.length - 1) ∧ x = -(1 / 2) * arcSum c T r f (fun _ => true) := by
    intro g x
    rw [hws1, List.mem_map]
    constructor
    · rintro ⟨y, hy, e⟩
      obtain ⟨r, f, h1, h2, rfl⟩ := (hmemE y).mp hy
      rw [Prod.mk.injEq] at e
      exact ⟨r, f, h1, h2, e.1.symm, e.2.symm⟩
    · rintro ⟨r, f, h1, h2, rfl, rfl⟩
      exact ⟨_, (hmemE _).mpr ⟨r, f, h1, h2, rfl⟩, rfl⟩
  have hm2 : ∀ g x, (g, x) ∈ ws2 ↔ ∃ (r : Nat) (f : List (List (Arc W))), T[r]? = some f ∧ 0 < f.length ∧
      g = off T r + 0 ∧ x = -(1 / 2) * arcSum c T r f (fun _ => true) := by
    intro g x
    rw [hws2, List.mem_map]
    constructor
    · rintro ⟨y, hy, e⟩
      obtain ⟨r, f, h1, h2, rfl⟩ := (hmemE y).mp hy
      rw [Prod.mk.injEq] at e
      exact ⟨r, f, h1, h2, e.1.symm, e.2.symm⟩
    · rintro ⟨r, f, h1, h2, rfl, rfl⟩
      exact ⟨_, (hmemE _).mpr ⟨r, f, h1, h2, rfl⟩, rfl⟩
  obtain ⟨fw', w1, w2, w3, w4⟩ := writeAll_eq fw ws1 (by
      rw [hws1, List.map_map]
      refine hnd _ ?_
      intro r r' f f' hf hf' h0 h0' x x' e
      exact (off_inj T r r' _ _ f f' hf hf' (by omega) (by omega) e).1) (by
      rintro ⟨g, x⟩ hw
      obtain ⟨r, f, h1, h2, rfl, _⟩ := (hm1 g x).mp hw
      have := off_lt T r (f.length - 1) f h1 (by omega)
      show off T r + (f.length - 1) < fw.length
      omega)
  obtain ⟨bw', v1, v2, v3, v4⟩ := writeAll_eq bw ws2 (by
      rw [hws2, List.map_map]
      refine hnd _ ?_
      intro r r' f f' hf hf' h0 h0' x x' e
      exact (off_inj T r r' 0 0 f f' hf hf' h0 h0' e).1) (by
      rintro ⟨g, x⟩ hw
      obtain ⟨r, f, h1, h2, rfl, _⟩ := (hm2 g x).mp hw
      have := off_lt T r 0 f h1 h2
      show off T r + 0 < bw.length
      omega)
  refine ⟨fw', bw', ?_, by omega, by omega, ?_⟩
  · unfold backpropArcPost
    have ea : (flat T).arcs.length = T.flatten.flatten.length := rfl
    rw [if_neg (by rw [ea, hc]; simp)]
    simp only [a1, hde, hinc, flat_id1_length, b0, b1, d0, f1, hends, Option.bind_eq_bind, Option.bind_some]
    rw [← hws1, ← hws2, w1, v1]
    rfl
  · intro r s f hf hs
    constructor
    · by_cases h : s + 1 = f.length
      · rw [if_pos h]
        exact w3 _ _ ((hm1 _ _).mpr ⟨r, f, hf, by omega, by omega, rfl⟩)
      · rw [if_neg h, w4, hfwv r s f hf hs]
        intro hmem
        obtain ⟨⟨g, x⟩, hx, he⟩ := List.mem_map.mp hmem
        obtain ⟨r', f', h1, h2, rfl, _⟩ := (hm1 _ _).mp hx
        obtain ⟨rfl, h3⟩ := off_inj T r' r _ _ f' f h1 hf (by omega) hs he
        rw [h1] at hf
        obtain rfl := Option.some.inj hf
        omega
    · by_cases h : s = 0
      · rw [if_pos h]
        exact v3 _ _ ((hm2 _ _).mpr ⟨r, f, hf, by omega, by omega, rfl⟩)
      · rw [if_neg h, v4, hbwv r s f hf hs]
        intro hmem
        obtain ⟨⟨g, x⟩, hx, he⟩ := List.mem_map.mp hmem
        obtain ⟨r', f', h1, h2, rfl, _⟩ := (hm2 _ _).mp hx
        obtain ⟨rfl, h3⟩ := off_inj T r' r _ _ f' f h1 hf (by omega) hs he
        omega
end

end Verif.Fsa.Grd
