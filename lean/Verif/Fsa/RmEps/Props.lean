import Mathlib.Algebra.Order.Group.Int
import Mathlib.Data.List.Induction
import Mathlib.Tactic.Abel
import Verif.Fsa.RmEps.Lemmas
import Verif.Fsa.RmEps.Spec

/-!
# C35: `remove_epsilon` on the CPU
-/

namespace Verif.Fsa.Rme
open Verif.Fsa.Det (Names labels_append path_snoc)
variable {W : Type}

/-! ## Numbers of kept states -/

theorem number_lt {f : Fsa W} {s t : Nat} (hs : kept f s = true) (h : s < t) :
    number f s < number f t := by
  unfold number
  obtain ⟨k, rfl⟩ : ∃ k, t = s + 1 + k := ⟨t - (s + 1), by omega⟩
  induction k with
  | zero =>
    rw [Nat.add_zero, List.range_succ, List.countP_append]
    simp [hs]
  | succ k ih =>
    have := ih (by omega)
    rw [show s + 1 + (k + 1) = (s + 1 + k) + 1 by omega, List.range_succ, List.countP_append]
    omega

theorem number_inj {f : Fsa W} {s t : Nat} (hs : kept f s = true) (ht : kept f t = true)
    (h : number f s = number f t) : s = t := by
  rcases Nat.lt_trichotomy s t with h1 | h1 | h1
  · have := number_lt hs h1
    omega
  · exact h1
  · have := number_lt ht h1
    omega

theorem kept_zero (f : Fsa W) : kept f 0 = true := by simp [kept]

theorem kept_final (f : Fsa W) : kept f f.final = true := by simp [kept]

theorem kept_dst {f : Fsa W} {a : Arc W} (ha : a ∈ f.arcs) (hl : a.label ≠ 0) :
    kept f a.dst = true := by
  unfold kept
  rw [Bool.or_eq_true, List.any_eq_true]
  exact Or.inr ⟨a, ha, by simp [hl]⟩

theorem number_zero (f : Fsa W) : number f 0 = 0 := rfl

theorem numStates_eq {f : Fsa W} (hv : f.Valid) :
    (List.range f.numStates).countP (kept f) = number f f.final + 1 := by
  have h1 := hv.two
  have h2 : f.numStates = f.final + 1 := by rw [Fsa.final]; omega
  rw [h2, List.range_succ, List.countP_append, number]
  simp [kept_final]

variable [AddCommGroup W] [LinearOrder W] [IsOrderedAddMonoid W]

/-- The arcs made for one state. -/
structure StateOk (f : Fsa W) (i : Nat) (sf : Num W) (out : List (Arc (Num W) × List Nat)) : Prop where
  sound : ∀ z ∈ out, OutOk f i sf z
  complete : ∀ p a, Path f.arcs i p a.src → EpsOnly p → a ∈ f.arcs → a.label ≠ 0 →
    ∃ z ∈ out, z.1.src = number f i ∧ z.1.dst = number f a.dst ∧ z.1.label = a.label ∧
      ∀ v, sf = .fin v → ∃ w, z.1.score = .fin w ∧ score p + a.score ≤ w

theorem perState_spec {f : Fsa W} (hv : f.Valid) (hi : ∀ a ∈ f.arcs, a.src < a.dst)
    (ws : Nat → Num W) {i : Nat} (hlt : i < f.numStates) :
    ∃ out, perState f ws i = some out ∧ StateOk f i (ws i) out := by
  have h0 : Inv f i (ws i) [] (fun a => a ∈ f.arcs ∧ a.src ∈ ([] : List Nat))
      ⟨[i], put (fun _ => none) i (.start i (ws i)), []⟩ := by
    refine ⟨by simp, by simp, ?_, ?_, ?_, by simp, by simp, ?_⟩
    · intro s hs
      cases List.mem_singleton.1 hs
      exact hlt
    · intro s
      dsimp only
      unfold put
      by_cases hs : s = i <;> simp [hs]
    · intro s c hc
      dsimp only at hc
      unfold put at hc
      split at hc
      · rename_i hs
        cases hc
        subst hs
        refine ⟨[], rfl, (path_nil ..).2 rfl, fun _ h => by simp at h, ?_⟩
        intro v hw
        simp [Node.fwd, hw, score]
      · cases hc
    · dsimp only
      rw [put_same]
      rfl
  obtain ⟨P, st, h1, h2, h3⟩ := expand_inv hv hi (sf := ws i) f.numStates h0 (by simp) (by simp)
    (by simp)
  refine ⟨st.out, by unfold perState; rw [h1]; rfl, h3.out, ?_⟩
  -- every epsilon path is followed
  have key : ∀ (p : List (Arc W)) (s : Nat), Path f.arcs i p s → EpsOnly p →
      ∃ c, st.tb s = some c ∧ ∀ v, ws i = .fin v → ∃ y, c.fwd = .fin y ∧ v + score p ≤ y := by
    intro p
    induction p using List.reverseRecOn with
    | nil =>
      intro s hp _
      rw [path_nil] at hp
      subst hp
      obtain ⟨c, hc⟩ := Option.isSome_iff_exists.1 h3.start
      refine ⟨c, hc, ?_⟩
      intro v hw
      obtain ⟨p, _, e2, _, e4⟩ := h3.node i c hc
      have hp0 : p = [] := by
        cases p with
        | nil => rfl
        | cons a p =>
          exfalso
          have mono : ∀ (q : List (Arc W)) (s t : Nat), Path f.arcs s q t → s ≤ t := by
            intro q
            induction q with
            | nil => intro s t h; rw [path_nil] at h; omega
            | cons b q ih =>
              intro s t h
              rw [path_cons] at h
              have := ih _ _ h.2.2
              have := hi b h.1
              omega
          rw [path_cons] at e2
          have := mono _ _ _ e2.2.2
          have := hi a e2.1
          omega
      rw [hp0] at e4
      exact ⟨_, e4 v hw, le_refl _⟩
    | append_singleton p a ih =>
      intro s hp he
      rw [path_snoc] at hp
      obtain ⟨c, hc, hb⟩ := ih a.src hp.1 (fun b hb => he b (by simp [hb]))
      have hdom := (h3.dom a.src).1 (by rw [hc]; rfl)
      rw [h2] at hdom
      have hP : a.src ∈ P := by simpa using hdom
      obtain ⟨c', hc', h5, _⟩ := h3.handled a ⟨hp.2.1, hP⟩
      rw [hc] at hc'
      cases hc'
      obtain ⟨e, he', hbe⟩ := h5 (he a (by simp))
      refine ⟨e, by rw [← hp.2.2]; exact he', ?_⟩
      intro v hw
      obtain ⟨y, e1, e2⟩ := hb v hw
      obtain ⟨x, z, e3, e4, e5⟩ := hbe v hw
      rw [e1, add_fin_fin] at e3
      cases e3
      refine ⟨z, e4, le_trans ?_ e5⟩
      rw [Det.score_snoc, ← add_assoc]
      exact add_le_add_left e2 _
  intro p a hp he ha hl
  obtain ⟨c, hc, hb⟩ := key p a.src hp he
  have hdom := (h3.dom a.src).1 (by rw [hc]; rfl)
  rw [h2] at hdom
  have hP : a.src ∈ P := by simpa using hdom
  obtain ⟨c', hc', _, h6⟩ := h3.handled a ⟨ha, hP⟩
  rw [hc] at hc'
  cases hc'
  obtain ⟨z, hz, he⟩ := h6 hl
  refine ⟨z, hz, by rw [he], by rw [he], by rw [he], ?_⟩
  intro v hw
  obtain ⟨y, e1, e2⟩ := hb v hw
  rw [he]
  simp only
  rw [e1, hw, add_fin_fin]
  refine ⟨_, rfl, ?_⟩
  rw [le_sub_iff_add_le]
  calc score p + a.score + v = v + score p + a.score := by abel
    _ ≤ y + a.score := add_le_add_left e2 _

/-- The result. -/
structure Result (f : Fsa W) (out : List (Arc (Num W) × List Nat)) : Prop where
  mem : ∀ z ∈ out, ∃ i, kept f i = true ∧ i < f.numStates ∧ OutOk f i (forwardWeights f i) z
  complete : ∀ i p a, kept f i = true → i < f.numStates → Path f.arcs i p a.src → EpsOnly p →
    a ∈ f.arcs → a.label ≠ 0 →
    ∃ z ∈ out, z.1.src = number f i ∧ z.1.dst = number f a.dst ∧ z.1.label = a.label ∧
      ∀ v, forwardWeights f i = .fin v → ∃ w, z.1.score = .fin w ∧ score p + a.score ≤ w
  sorted : (out.map Prod.fst).Pairwise (fun a b => a.src ≤ b.src)

theorem removeEpsilonHost_out {f : Fsa W} (hv : f.Valid) (hi : ∀ a ∈ f.arcs, a.src < a.dst) :
    ∃ out, removeEpsilonHost f =
        some (⟨number f f.final + 1, out.map Prod.fst⟩, out.map Prod.snd) ∧ Result f out := by
  have hsome : ∀ i ∈ (List.range f.numStates).filter (kept f),
      ∃ out, perState f (forwardWeights f) i = some out := by
    intro i hm
    obtain ⟨out, h, _⟩ := perState_spec hv hi (forwardWeights f)
      (List.mem_range.1 (List.mem_filter.1 hm).1)
    exact ⟨out, h⟩
  obtain ⟨outs, houts⟩ := Util.mapM_exists hsome
  obtain ⟨hlen, hget⟩ := Util.mapM_get houts
  have hstate : ∀ (k : Nat) (o : List (Arc (Num W) × List Nat)), outs[k]? = some o →
      ∃ i, ((List.range f.numStates).filter (kept f))[k]? = some i ∧ kept f i = true ∧
        i < f.numStates ∧ StateOk f i (forwardWeights f i) o := by
    intro k o ho
    obtain ⟨hk, _⟩ := List.getElem?_eq_some_iff.1 ho
    rw [hlen] at hk
    have h1 := List.getElem?_eq_getElem hk
    have h2 := List.mem_filter.1 (List.mem_of_getElem? h1)
    have h3 := List.mem_range.1 h2.1
    obtain ⟨o', h4, h5⟩ := perState_spec hv hi (forwardWeights f) h3
    have h6 := hget k _ h1
    rw [ho, h4] at h6
    cases h6
    exact ⟨_, h1, h2.2, h3, h5⟩
  refine ⟨outs.flatten, ?_, ?_, ?_, ?_⟩
  · unfold removeEpsilonHost
    rw [if_neg (by have := hv.two; omega), houts, numStates_eq hv]
  · intro z hz
    obtain ⟨o, ho, hzo⟩ := List.mem_flatten.1 hz
    obtain ⟨k, hk⟩ := List.mem_iff_getElem?.1 ho
    obtain ⟨i, _, h2, h3, h4⟩ := hstate k o hk
    exact ⟨i, h2, h3, h4.sound z hzo⟩
  · intro i p a hki hin hp he ha hl
    have hm : i ∈ (List.range f.numStates).filter (kept f) :=
      List.mem_filter.2 ⟨List.mem_range.2 hin, hki⟩
    obtain ⟨k, hk⟩ := List.mem_iff_getElem?.1 hm
    obtain ⟨o, h4, h5⟩ := perState_spec hv hi (forwardWeights f) hin
    have h6 := hget k i hk
    rw [h4] at h6
    obtain ⟨z, hz, h7⟩ := h5.complete p a hp he ha hl
    exact ⟨z, List.mem_flatten.2 ⟨o, List.mem_of_getElem? h6, hz⟩, h7⟩
  · rw [List.pairwise_map, List.pairwise_flatten]
    constructor
    · intro o ho
      obtain ⟨k, hk⟩ := List.mem_iff_getElem?.1 ho
      obtain ⟨i, _, _, _, h4⟩ := hstate k o hk
      refine List.Pairwise.imp_of_mem (R := fun _ _ => True) ?_ (List.pairwise_of_forall fun _ _ => trivial)
      intro x y hx hy _
      obtain ⟨_, _, _, _, _, _, _, hx1, _⟩ := h4.sound x hx
      obtain ⟨_, _, _, _, _, _, _, hy1, _⟩ := h4.sound y hy
      rw [hx1, hy1]
    · rw [List.pairwise_iff_getElem]
      intro k l hk hl hkl x hx y hy
      obtain ⟨i, h1, h2, _, h4⟩ := hstate k _ (List.getElem?_eq_getElem hk)
      obtain ⟨j, h1', _, _, h4'⟩ := hstate l _ (List.getElem?_eq_getElem hl)
      obtain ⟨_, _, _, _, _, _, _, hx1, _⟩ := h4.sound x hx
      obtain ⟨_, _, _, _, _, _, _, hy1, _⟩ := h4'.sound y hy
      have hsort : ((List.range f.numStates).filter (kept f)).Pairwise (· < ·) :=
        List.pairwise_lt_range.sublist List.filter_sublist
      rw [List.pairwise_iff_getElem] at hsort
      obtain ⟨hki, rfl⟩ := List.getElem?_eq_some_iff.1 h1
      obtain ⟨hlj, rfl⟩ := List.getElem?_eq_some_iff.1 h1'
      have := hsort k l hki hlj hkl
      rw [hx1, hy1]
      exact le_of_lt (number_lt h2 this)

theorem noEps_append (l m : List Int) : noEps (l ++ m) = noEps l ++ noEps m := by simp [noEps]

omit [AddCommGroup W] [LinearOrder W] [IsOrderedAddMonoid W] in
theorem noEps_eps {p : List (Arc W)} (h : EpsOnly p) : noEps (labels p) = [] := by
  unfold noEps labels
  rw [List.filter_eq_nil_iff]
  intro x hx
  obtain ⟨a, ha, rfl⟩ := List.mem_map.1 hx
  simp [h a ha]

omit [AddCommGroup W] [LinearOrder W] [IsOrderedAddMonoid W] in
theorem noEps_single {a : Arc W} (h : a.label ≠ 0) : noEps (labels [a]) = [a.label] := by
  simp [noEps, labels, h]

/-- **C35**, on the CPU: for a valid FSA whose arcs go to larger states, `RemoveEpsilonHost` returns
an epsilon-free FSA that accepts the same strings with the same best scores, and its arc derivatives
name the arcs that each arc stands for. -/
theorem removeEpsilonHost_correct (f : Fsa W) (hv : f.Valid) (hi : ∀ a ∈ f.arcs, a.src < a.dst) :
    ∃ g d, removeEpsilonHost f = some (g, d) ∧ g.Valid ∧ IsEpsRemoval Num.fin f g d := by
  obtain ⟨out, hout, hres⟩ := removeEpsilonHost_out hv hi
  suffices h : Fsa.Valid (⟨number f f.final + 1, out.map Prod.fst⟩ : Fsa (Num W)) ∧
      (Fsa.Valid (⟨number f f.final + 1, out.map Prod.fst⟩ : Fsa (Num W)) →
        IsEpsRemoval Num.fin f ⟨number f f.final + 1, out.map Prod.fst⟩ (out.map Prod.snd)) from
    ⟨_, _, hout, h.1, h.2 h.1⟩
  refine ⟨?_, fun hval => ⟨fun _ => hval, ?_, ?_, ?_, ?_⟩⟩
  · -- valid
    have hmem : ∀ b ∈ out.map Prod.fst, ∃ (i : Nat) (a : Arc W), kept f i = true ∧ i < f.final ∧
        a ∈ f.arcs ∧ a.label ≠ 0 ∧ b.src = number f i ∧ b.dst = number f a.dst ∧ b.label = a.label := by
      intro b hb
      obtain ⟨z, hz, rfl⟩ := List.mem_map.1 hb
      obtain ⟨i, h1, h2, p, a, _, h4, _, h6, h7, h8, h9, h10, _⟩ := hres.mem z hz
      refine ⟨i, a, h1, ?_, h6, h7, h8, h9, h10⟩
      cases p with
      | nil =>
        rw [path_nil] at h4
        rw [h4]
        exact hv.src_lt a h6
      | cons c p =>
        rw [path_cons] at h4
        rw [← h4.2.1]
        exact hv.src_lt c h4.1
    have hfin : Fsa.final (⟨number f f.final + 1, out.map Prod.fst⟩ : Fsa (Num W)) =
        number f f.final := rfl
    refine ⟨?_, hres.sorted, ?_, ?_, ?_⟩
    · have : number f 0 < number f f.final := number_lt (kept_zero f) (by
        have := hv.two
        rw [Fsa.final]
        omega)
      rw [number_zero] at this
      show 2 ≤ number f f.final + 1
      omega
    · intro b hb
      obtain ⟨i, a, h1, h2, _, _, h5, _⟩ := hmem b hb
      rw [hfin, h5]
      exact number_lt h1 h2
    · intro b hb
      obtain ⟨i, a, _, _, h3, h4, _, h6, _⟩ := hmem b hb
      have h7 := hv.dst_lt a h3
      rw [h6]
      show number f a.dst < number f f.final + 1
      rcases Nat.lt_or_ge a.dst f.final with h | h
      · have := number_lt (kept_dst h3 h4) h
        omega
      · have : a.dst = f.final := by
          rw [Fsa.final] at h ⊢
          omega
        rw [this]
        omega
    · intro b hb
      obtain ⟨i, a, _, _, h3, h4, _, h6, h7⟩ := hmem b hb
      rw [hfin, h6, h7, hv.final_iff a h3]
      constructor
      · intro h
        rw [h]
      · exact number_inj (kept_dst h3 h4) (kept_final f)
  · -- no epsilons
    intro b hb
    obtain ⟨z, hz, rfl⟩ := List.mem_map.1 hb
    obtain ⟨_, _, _, _, a, _, _, _, _, h7, _, _, h10, _⟩ := hres.mem z hz
    rw [h10]
    exact h7
  · simp
  · -- soundness
    have key : ∀ (q : List (Arc (Num W))) (ks : List Nat) (i : Nat),
        ks.map (fun k => (out.map Prod.fst)[k]?) = q.map some → kept f i = true →
        (forwardWeights f i).IsFin → Chain (number f i) q (number f f.final) →
        ∃ p, ((ks.map fun k => ((out.map Prod.snd)[k]?).getD []).flatten).map (fun j => f.arcs[j]?) =
            p.map some ∧ Path f.arcs i p f.final ∧ noEps (labels p) = labels q ∧
          score q = .fin (score p) := by
      intro q
      induction q with
      | nil =>
        intro ks i hn hk _ hc
        have hks : ks = [] := by simpa using hn
        subst hks
        have : i = f.final := number_inj hk (kept_final f) hc
        exact ⟨[], rfl, (path_nil ..).2 this, rfl, rfl⟩
      | cons b q ih =>
        intro ks i hn hk hfw hc
        cases ks with
        | nil => simp at hn
        | cons k ks =>
          simp only [List.map_cons, List.cons.injEq] at hn
          obtain ⟨hb, hn⟩ := hn
          rw [List.getElem?_map] at hb
          cases hz : out[k]? with
          | none => rw [hz] at hb; simp at hb
          | some z =>
            rw [hz] at hb
            have hb : z.1 = b := Option.some.inj hb
            obtain ⟨i', h1, h2, p, a, h3, h4, h5, h6, h7, h8, h9, h10, h11⟩ :=
              hres.mem z (List.mem_of_getElem? hz)
            obtain ⟨hc1, hc2⟩ := hc
            rw [← hb, h8] at hc1
            have : i' = i := number_inj h1 hk hc1
            subst this
            have hpa : Path f.arcs i' (p ++ [a]) a.dst := (path_snoc ..).2 ⟨h4, h6, rfl⟩
            rw [← hb, h9] at hc2
            obtain ⟨p2, e1, e2, e3, e4⟩ := ih ks a.dst hn (kept_dst h6 h7)
              (forward_fin hv hi _ _ _ hpa hfw) hc2
            obtain ⟨v, hw⟩ := hfw
            refine ⟨(p ++ [a]) ++ p2, ?_, (path_append ..).2 ⟨_, hpa, e2⟩, ?_, ?_⟩
            · rw [List.map_cons, List.flatten_cons, List.map_append, e1, List.getElem?_map, hz]
              have h3 : z.2.map (fun j => f.arcs[j]?) = (p ++ [a]).map some := h3
              simp only [Option.map_some, Option.getD_some]
              rw [h3]
              simp
            · rw [labels_append, labels_append, noEps_append, noEps_append, noEps_eps h5,
                noEps_single h7, e3]
              simp [labels, ← hb, h10]
            · have hs : score (b :: q) = b.score + score q := rfl
              rw [hs, e4, ← hb, h11 v hw, add_fin_fin, Det.score_app, Det.score_snoc]
    intro ks q hn hacc
    obtain ⟨p, h1, h2, h3, h4⟩ := key q ks 0 hn (kept_zero f) (forward_start hv hi) hacc.2.1
    exact ⟨p, h1, ⟨hv.two, h2⟩, h3, h4⟩
  · -- completeness
    have key : ∀ (p e : List (Arc W)) (i s : Nat), kept f i = true → i < f.numStates →
        (forwardWeights f i).IsFin → Path f.arcs i e s → EpsOnly e → Path f.arcs s p f.final →
        ∃ q w, Path (out.map Prod.fst) (number f i) q (number f f.final) ∧
          labels q = noEps (labels p) ∧ score q = .fin w ∧ score e + score p ≤ w := by
      intro p
      induction p with
      | nil =>
        intro e i s hk _ _ he hee hp
        rw [path_nil] at hp
        subst hp
        rcases List.eq_nil_or_concat e with rfl | ⟨e', a, rfl⟩
        · rw [path_nil] at he
          subst he
          exact ⟨[], 0, (path_nil ..).2 rfl, rfl, rfl, by simp [score]⟩
        · exfalso
          rw [List.concat_eq_append] at he hee
          rw [path_snoc] at he
          have h1 := (hv.final_iff a he.2.1).2 he.2.2
          have h2 := hee a (by simp)
          omega
      | cons a p ih =>
        intro e i s hk hin hfw he hee hp
        rw [path_cons] at hp
        obtain ⟨h1, rfl, h3⟩ := hp
        have hea : Path f.arcs i (e ++ [a]) a.dst := (path_snoc ..).2 ⟨he, h1, rfl⟩
        have hl1 : labels (a :: p) = labels [a] ++ labels p := rfl
        have hs1 : score (a :: p) = a.score + score p := rfl
        by_cases hl : a.label = 0
        · obtain ⟨q, w, e1, e2, e3, e4⟩ := ih (e ++ [a]) i a.dst hk hin hfw hea (by
            intro b hb
            rcases List.mem_append.1 hb with hb | hb
            · exact hee b hb
            · cases List.mem_singleton.1 hb
              exact hl) h3
          refine ⟨q, w, e1, ?_, e3, ?_⟩
          · rw [hl1, noEps_append, e2]
            simp [noEps, labels, hl]
          · rw [Det.score_snoc, add_assoc] at e4
            rwa [hs1]
        · obtain ⟨z, hz, z1, z2, z3, z4⟩ := hres.complete i e a hk hin he hee h1 hl
          obtain ⟨q, w, e1, e2, e3, e4⟩ := ih [] a.dst a.dst (kept_dst h1 hl) (hv.dst_lt a h1)
            (forward_fin hv hi _ _ _ hea hfw) ((path_nil ..).2 rfl) (fun _ h => by simp at h) h3
          obtain ⟨v, hw⟩ := hfw
          obtain ⟨w', e5, e6⟩ := z4 v hw
          refine ⟨z.1 :: q, w' + w, ?_, ?_, ?_, ?_⟩
          · rw [path_cons]
            exact ⟨List.mem_map_of_mem hz, z1, by rw [z2]; exact e1⟩
          · rw [hl1, noEps_append, noEps_single hl, ← e2, ← z3]
            rfl
          · have hs : score (z.1 :: q) = z.1.score + score q := rfl
            rw [hs, e5, e3, add_fin_fin]
          · have e4 : score p ≤ w := by simpa [score] using e4
            rw [hs1, ← add_assoc]
            exact add_le_add e6 e4
    intro p hp
    obtain ⟨q, w, h1, h2, h3, h4⟩ := key p [] 0 0 (kept_zero f) (by have := hv.two; omega)
      (forward_start hv hi) ((path_nil ..).2 rfl) (fun _ h => by simp at h) hp.2
    have : number f 0 < number f f.final := number_lt (kept_zero f) (by
      have := hv.two
      rw [Fsa.final]
      omega)
    rw [number_zero] at this h1
    refine ⟨q, w, ⟨by show 2 ≤ number f f.final + 1; omega, h1⟩, h2, h3, by simpa [score] using h4⟩

/-- **C35**, on the CPU: `w` is the best score of the paths that accept `x` in the input exactly if it
is in the result. -/
theorem removeEpsilonHost_best (f : Fsa W) (hv : f.Valid) (hi : ∀ a ∈ f.arcs, a.src < a.dst)
    (g : Fsa (Num W)) (d : List (List Nat)) (h : removeEpsilonHost f = some (g, d)) (x : List Int)
    (w : W) :
    ((∃ p, Accepting f p ∧ noEps (labels p) = x ∧ score p = w) ∧
        ∀ p, Accepting f p → noEps (labels p) = x → score p ≤ w) ↔
      ((∃ q, Accepting g q ∧ labels q = x ∧ score q = .fin w) ∧
        ∀ q, Accepting g q → labels q = x → ∃ v, score q = .fin v ∧ v ≤ w) := by
  obtain ⟨g', d', h', _, hr⟩ := removeEpsilonHost_correct f hv hi
  rw [h] at h'
  cases h'
  exact hr.best (fun _ _ => Num.fin.inj) x w

/-! ### Concrete cases -/

/-- Two epsilon paths lead from 0 to 2; the longer one is better. -/
def twoWays : Fsa Int :=
  ⟨5, [⟨0, 1, 0, 2⟩, ⟨0, 2, 0, 1⟩, ⟨1, 2, 0, 3⟩, ⟨1, 3, 7, 1⟩, ⟨2, 3, 8, 0⟩, ⟨3, 4, -1, 0⟩]⟩

theorem twoWays_valid : twoWays.Valid :=
  ⟨by decide, by unfold Fsa.Sorted; decide, by decide, by decide, by decide⟩

example : removeEpsilonHost twoWays =
    some (⟨3, [⟨0, 1, 7, .fin 3⟩, ⟨0, 1, 8, .fin 5⟩, ⟨1, 2, -1, .fin 0⟩]⟩,
      [[0, 3], [0, 2, 4], [5]]) := by decide +kernel

example : ∃ g d, removeEpsilonHost twoWays = some (g, d) ∧ g.Valid ∧ IsEpsRemoval Num.fin twoWays g d :=
  removeEpsilonHost_correct _ twoWays_valid (by decide)

/-- State 2 has an arc with a label from state 1, which cannot be reached. -/
def unreachable : Fsa Int := ⟨4, [⟨0, 3, -1, 1⟩, ⟨1, 2, 5, 1⟩, ⟨2, 3, -1, 1⟩]⟩

theorem unreachable_valid : unreachable.Valid :=
  ⟨by decide, by unfold Fsa.Sorted; decide, by decide, by decide, by decide⟩

/-- Although the input has no epsilons and finite scores, the result has an arc whose score is not a
number. -/
theorem removeEpsilonHost_nan : removeEpsilonHost unreachable =
    some (⟨3, [⟨0, 2, -1, .fin 1⟩, ⟨1, 2, -1, .nan⟩]⟩, [[0], [2]]) := by decide +kernel

end Verif.Fsa.Rme
