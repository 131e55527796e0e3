import Verif.Fsa.Tensor.Lemmas

/-!
# C13: FSAs and tensors
-/

namespace Verif.Fsa
open Verif.Ragged Verif.Util Verif.Fsa.Ten

/-! ## Specification -/

/-- Every arc says which state it leaves. -/
def SrcOk (T : List (List (List (RArc Int)))) : Prop :=
  ∀ (r : Nat) (f : List (List (RArc Int))) (s : Nat) (row : List (RArc Int)) (a : RArc Int), T[r]? = some f →
    f[s]? = some row → a ∈ row → a.src = s

/-- In the integers `t` of a tensor of `n` FSAs, every arc leaves a state of the FSA to which it belongs:
if arc `i` is one of those between `lo` and `hi`, then its source is among the `e - b` states. -/
def SourcesInside (t : List Int) (n : Nat) : Prop :=
  ∀ (r i : Nat) (b e lo hi src : Int), t[2 + r]? = some b → t[2 + (r + 1)]? = some e →
    t[2 + (n + 1) + r]? = some lo → t[2 + (n + 1) + (r + 1)]? = some hi → r < n →
    t[2 + (n + 1) * 2 + 4 * i]? = some src → lo ≤ i → (i : Int) < hi → 0 ≤ src ∧ src < e - b

namespace Ten

/-! ## From FSAs to integers and back -/

theorem slowInts_enc (ns ks ms : List Nat) (arcs : List (RArc Int)) :
    slowInts ⟨psum ns, idsFrom 0 ns, psum ms, idsFrom 0 ms, arcs⟩ (psum ks) = enc 0 ns ks arcs := by
  unfold slowInts enc
  simp only [psum_length, Nat.add_sub_cancel]

theorem rows_flat (T : List (List (List (RArc Int)))) (hT : SrcOk T) :
    Rows (T.map List.length) (T.map (fun f => f.flatten.length)) T.flatten.flatten (T.flatten.map List.length) := by
  refine ⟨by rw [List.length_map, List.length_flatten], by rw [← List.length_flatten], ?_⟩
  intro i r a hr ha
  have hi := (List.getElem?_eq_some_iff.mp ha).1
  obtain ⟨r', f, s, row, k, hf, hs, hk, hpos⟩ := arc_pos T i hi
  have hsl := (List.getElem?_eq_some_iff.mp hs).1
  have hg := state_at T r' s f hf hsl
  rw [hs] at hg
  have h1 := arc_at T r' s k f row hf hs hk
  rw [← hpos, ha, List.getElem?_eq_getElem hk] at h1
  have hsrc := hT r' f s row a hf hs (by rw [Option.some.inj h1]; exact List.getElem_mem hk)
  have h2 : (idsFrom 0 (T.flatten.map List.length))[i]? = some (off T r' + s) := by
    have := ids_at (T.flatten.map List.length) (off T r' + s) row.length k
      (by rw [List.getElem?_map, hg]; rfl) hk
    rw [hpos]
    exact this
  have h3 := gather_ids T [] 0
  rw [List.nil_append] at h3
  have h4 := (mapM_get h3).2 i _ h2
  rw [hr] at h4
  have h5 := ids_at (T.map List.length) r' f.length s (by rw [List.getElem?_map, hf]; rfl) hsl
  have h6 : some r = some r' := h4.trans h5
  obtain rfl := Option.some.inj h6
  exact ⟨off T r + s, h2, by rw [hsrc]; push_cast; rfl⟩

theorem take_sum_mono (l : List Nat) {a b : Nat} (h : a ≤ b) : (l.take a).sum ≤ (l.take b).sum := by
  have : l.take b = l.take a ++ (l.take b).drop a := by
    have h1 := List.take_append_drop a (l.take b)
    rw [List.take_take, Nat.min_eq_left h] at h1
    exact h1.symm
  rw [this, List.sum_append]
  omega

theorem gather_psum (ns ms : List Nat) (h : ms.length = ns.sum) :
    gather (psum ms) (psum ns) =
      some ((List.range (ns.length + 1)).map (fun r => (ms.take (ns.take r).sum).sum)) := by
  apply mapM_some_of
  · rw [psum_length, List.length_map, List.length_range]
  intro r b hb
  have hr := (List.getElem?_eq_some_iff.mp hb).1
  rw [psum_length] at hr
  rw [psum_get _ _ (by omega)] at hb
  obtain rfl := Option.some.inj hb
  rw [List.getElem?_map, List.getElem?_range hr, Option.map_some]
  refine psum_get ms _ ?_
  rw [h]
  have := take_sum_mono ns (show r ≤ ns.length by omega)
  rwa [List.take_length] at this

theorem own_iff (ns ks ms : List Nat) (arcs : List (RArc Int)) (hk : ks.length = ns.length)
    (hs : ks.sum = arcs.length) (hR : Rows ns ks arcs ms) :
    (List.range (ns.length + 1)).map (fun r => (ms.take (ns.take r).sum).sum) = psum ks ↔
      ∀ (i r n : Nat) (a : RArc Int), (idsFrom 0 ks)[i]? = some r → ns[r]? = some n → arcs[i]? = some a →
        0 ≤ a.src ∧ a.src < n := by
  obtain ⟨hml, hms, hrow⟩ := hR
  constructor
  · intro h i r n a hr hn ha
    obtain ⟨g, hg, hgs⟩ := hrow i r a hr ha
    have hrl := (List.getElem?_eq_some_iff.mp hn).1
    have hq : ∀ q, q ≤ ns.length → (ms.take (ns.take q).sum).sum = (ks.take q).sum := by
      intro q hq
      have h1 := congrArg (fun l : List Nat => l[q]?) h
      simp only [List.getElem?_map] at h1
      rw [List.getElem?_range (by omega), psum_get _ _ (by omega)] at h1
      exact Option.some.inj h1
    rw [← Nat.zero_add r] at hr
    obtain ⟨_, h2, h3⟩ := (idsFrom_get 0 ks i r).mp hr
    rw [← Nat.zero_add g] at hg
    obtain ⟨_, h4, h5⟩ := (idsFrom_get 0 ms i g).mp hg
    rw [← hq r (by omega)] at h2
    rw [← hq (r + 1) (by omega)] at h3
    rw [take_succ_sum ns r n hn] at h3
    have h6 : (ns.take r).sum ≤ g := by
      by_contra hc
      have := take_sum_mono ms (show g + 1 ≤ (ns.take r).sum by omega)
      omega
    have h7 : g < (ns.take r).sum + n := by
      by_contra hc
      have := take_sum_mono ms (show (ns.take r).sum + n ≤ g by omega)
      omega
    omega
  · intro h
    apply List.ext_getElem?
    intro q
    by_cases hq : q < ns.length + 1
    · rw [List.getElem?_map, List.getElem?_range hq, psum_get _ _ (by omega), Option.map_some]
      congr 1
      have e1 := idsFrom_countP 0 (ns.take q).sum ms
      have e2 := idsFrom_countP 0 q ks
      rw [← e1, ← e2]
      have l1 : (idsFrom 0 ms).length = arcs.length := by rw [idsFrom_length, hms]
      have l2 : (idsFrom 0 ks).length = arcs.length := by rw [idsFrom_length, hs]
      have key : ∀ (l l' : List Nat) (p p' : Nat → Bool), l.length = l'.length →
          (∀ (i x y : Nat), l[i]? = some x → l'[i]? = some y → p x = p' y) → l.countP p = l'.countP p' := by
        intro l
        induction l with
        | nil =>
          intro l' p p' hl _
          rw [List.length_eq_zero_iff.mp (show l'.length = 0 by rw [← hl]; rfl)]
          rfl
        | cons x l ih =>
          intro l' p p' hl hp
          cases l' with
          | nil => simp at hl
          | cons y l' =>
            rw [List.countP_cons, List.countP_cons, ih l' p p' (by simpa using hl)
              (fun i x y hx hy => hp (i + 1) x y (by simpa using hx) (by simpa using hy)),
              hp 0 x y rfl rfl]
      apply key _ _ _ _ (by omega)
      intro i g r hg hr
      have hi := (List.getElem?_eq_some_iff.mp hg).1
      have ha := List.getElem?_eq_getElem (show i < arcs.length by omega)
      obtain ⟨g', hg', hgs⟩ := hrow i r _ hr ha
      rw [hg] at hg'
      obtain rfl := Option.some.inj hg'
      have hrl : r < ns.length := by
        have := idsFrom_mem 0 ks r (List.mem_of_getElem? hr); omega
      have hn := List.getElem?_eq_getElem hrl
      obtain ⟨h1, h2⟩ := h i r _ _ hr hn ha
      have h3 := take_succ_sum ns r _ hn
      rw [Nat.zero_add, Nat.zero_add]
      apply decide_eq_decide.mpr
      constructor
      · intro h4
        by_contra hc
        have := take_sum_mono ns (show q ≤ r by omega)
        omega
      · intro h4
        have := take_sum_mono ns (show r + 1 ≤ q by omega)
        omega
    · rw [List.getElem?_eq_none (by simpa using hq), List.getElem?_eq_none (by simp [hk]; omega)]

/-! ## Reading the parts of a tensor -/

theorem enc_get1 (x : Int) (ns ks : List Nat) (arcs : List (RArc Int)) (r : Nat) (h : r ≤ ns.length) :
    (enc x ns ks arcs)[2 + r]? = some ((ns.take r).sum : Int) := by
  have h1 := enc_drop2 x ns ks arcs
  have h2 := congrArg (fun l : List Int => l[r]?) h1
  beta_reduce at h2
  rw [List.getElem?_take_of_lt (by omega), List.getElem?_drop, ints, List.getElem?_map, psum_get _ _ h] at h2
  exact h2

theorem enc_get2 (x : Int) (ns ks : List Nat) (arcs : List (RArc Int)) (hk : ks.length = ns.length) (r : Nat)
    (h : r ≤ ns.length) :
    (enc x ns ks arcs)[2 + (ns.length + 1) + r]? = some ((ks.take r).sum : Int) := by
  have h1 := enc_drop3 x ns ks arcs hk
  have h2 := congrArg (fun l : List Int => l[r]?) h1
  beta_reduce at h2
  rw [List.getElem?_take_of_lt (by omega), List.getElem?_drop, ints, List.getElem?_map,
    psum_get _ _ (by omega)] at h2
  exact h2

theorem arcs_get (arcs : List (RArc Int)) (i : Nat) :
    (arcs.map arcInts).flatten[4 * i]? = arcs[i]?.map RArc.src := by
  induction arcs generalizing i with
  | nil => simp
  | cons a as ih =>
    rw [List.map_cons, List.flatten_cons]
    cases i with
    | zero => rfl
    | succ i =>
      rw [List.getElem?_cons_succ, ← ih i, List.getElem?_append_right (by simp [arcInts])]
      congr 1

theorem enc_get3 (x : Int) (ns ks : List Nat) (arcs : List (RArc Int)) (hk : ks.length = ns.length) (i : Nat) :
    (enc x ns ks arcs)[2 + (ns.length + 1) * 2 + 4 * i]? = arcs[i]?.map RArc.src := by
  rw [← arcs_get, ← enc_drop4 x ns ks arcs hk, List.getElem?_drop]

theorem inside_iff (x : Int) (ns ks : List Nat) (arcs : List (RArc Int)) (hk : ks.length = ns.length) :
    SourcesInside (enc x ns ks arcs) ns.length ↔
      ∀ (i r n : Nat) (a : RArc Int), (idsFrom 0 ks)[i]? = some r → ns[r]? = some n → arcs[i]? = some a →
        0 ≤ a.src ∧ a.src < n := by
  constructor
  · intro h i r n a hr hn ha
    have hrl := (List.getElem?_eq_some_iff.mp hn).1
    rw [← Nat.zero_add r] at hr
    obtain ⟨_, h2, h3⟩ := (idsFrom_get 0 ks i r).mp hr
    have := h r i _ _ _ _ _ (enc_get1 x ns ks arcs r (by omega)) (enc_get1 x ns ks arcs (r + 1) (by omega))
      (enc_get2 x ns ks arcs hk r (by omega)) (enc_get2 x ns ks arcs hk (r + 1) (by omega)) hrl
      (by rw [enc_get3 x ns ks arcs hk, ha]; rfl) (by omega) (by omega)
    rw [take_succ_sum ns r n hn] at this
    omega
  · intro h r i b e lo hi src hb he hlo hhi hr hsrc h1 h2
    rw [enc_get1 x ns ks arcs r (by omega)] at hb
    rw [enc_get1 x ns ks arcs (r + 1) (by omega)] at he
    rw [enc_get2 x ns ks arcs hk r (by omega)] at hlo
    rw [enc_get2 x ns ks arcs hk (r + 1) (by omega)] at hhi
    rw [enc_get3 x ns ks arcs hk] at hsrc
    obtain ⟨a, ha, rfl⟩ := Option.map_eq_some_iff.mp hsrc
    have hn := List.getElem?_eq_getElem hr
    have h3 := (idsFrom_get 0 ks i r).mpr ⟨by omega, by have := Option.some.inj hlo; omega,
      by have := Option.some.inj hhi; omega⟩
    rw [Nat.zero_add] at h3
    have h4 := h i r _ a h3 hn ha
    have h5 := take_succ_sum ns r _ hn
    have h6 := Option.some.inj hb
    have h7 := Option.some.inj he
    omega

end Ten

/-! ## Vectors of FSAs -/

/-- **C13.** Writing a vector of FSAs as a tensor and reading it back gives the same vector.  The FSAs may
be empty and their arcs may hold any labels, destinations and scores. -/
theorem fsaVec_roundtrip (T : List (List (List (RArc Int)))) (hT : SrcOk T) :
    ∃ t, toTensor (fresh (rawFlat T)) = some t ∧ fromTensor t = some (rawFlat T) := by
  have hR := rows_flat T hT
  have hs : (T.map (fun f => f.flatten.length)).sum = T.flatten.flatten.length := by
    clear hT hR
    induction T with
    | nil => rfl
    | cons f T ih =>
      rw [List.map_cons, List.sum_cons, ih, List.flatten_cons, List.flatten_append, List.length_append]
  refine ⟨enc 0 (T.map List.length) (T.map (fun f => f.flatten.length)) T.flatten.flatten, ?_, ?_⟩
  · unfold toTensor fresh rawFlat
    simp only [gather_splits T, Option.bind_eq_bind, Option.bind_some]
    rw [if_neg, slowInts_enc]
    unfold Stored.wasTensor
    rw [decide_eq_true_iff]
    rintro ⟨h, _⟩
    simp only at h
    omega
  · rw [fromTensor_enc _ _ _ _ (by simp) hs, finish_iff _ _ _ (by simp) hs]
    exact ⟨_, hR, rfl⟩

/-- **C13, part.** A tensor that is accepted is written back unchanged exactly if its second integer is zero
and its arcs leave states of their own FSA.  The code checks neither. -/
theorem fsaVec_reserialize_partial (t : List Int) (s : Stored) (h : readBack t = some s) :
    toTensor s = some t ↔ t[1]? = some 0 ∧ SourcesInside t (s.v.sp1.length - 1) := by
  unfold readBack at h
  simp only [Option.bind_eq_bind] at h
  obtain ⟨v, hv, h⟩ := Option.bind_eq_some_iff.mp h
  obtain rfl := Option.some.inj h
  obtain ⟨x, ns, ks, arcs, rfl, hk, hs, hf⟩ := fromTensor_parts t v hv
  obtain ⟨ms, hR, rfl⟩ := (finish_iff ns ks arcs hk hs v).mp hf
  have hown := own_iff ns ks ms arcs hk hs hR
  have hin := inside_iff x ns ks arcs hk
  have hgp := gather_psum ns ms hR.1
  have h1 : (enc x ns ks arcs)[1]? = some x := rfl
  rw [show (psum ns).length - 1 = ns.length by rw [psum_length]; rfl]
  rw [hin, h1, Option.some.injEq, ← hown]
  unfold toTensor
  simp only [hgp, Option.bind_eq_bind, Option.bind_some]
  by_cases hw : Stored.wasTensor ⟨⟨psum ns, idsFrom 0 ns, psum ms, idsFrom 0 ms, arcs⟩, enc x ns ks arcs,
      2 + (psum ns).length * 2, 2⟩ ((List.range (ns.length + 1)).map (fun r => (ms.take (ns.take r).sum).sum)) = true
  · rw [if_pos hw]
    unfold Stored.wasTensor at hw
    rw [decide_eq_true_iff] at hw
    obtain ⟨_, _, h2, h3⟩ := hw
    simp only [psum_length] at h2 h3
    rw [enc_drop3 x ns ks arcs hk] at h3
    have h4 : x = 0 := by
      have := congrArg (fun l : List Int => l[1]?) h2
      simpa [enc] using this
    have h5 : (List.range (ns.length + 1)).map (fun r => (ms.take (ns.take r).sum).sum) = psum ks := by
      have : Function.Injective (fun y : Nat => (y : Int)) := fun a b h => by simpa using h
      exact (List.map_injective_iff.mpr this h3).symm
    simp only [psum_length, h4, h5, and_self, iff_true]
    rw [List.take_of_length_le (by rw [enc_length _ _ _ _ hk])]
  · rw [if_neg hw]
    have hne : ¬ (x = 0 ∧ (List.range (ns.length + 1)).map (fun r => (ms.take (ns.take r).sum).sum) = psum ks) := by
      rintro ⟨rfl, h5⟩
      apply hw
      unfold Stored.wasTensor
      rw [decide_eq_true_iff, h5]
      refine ⟨rfl, rfl, ?_, ?_⟩
      · simp [enc]
      · simp only [psum_length]
        exact enc_drop3 0 ns ks arcs hk
    constructor
    · intro h2
      exfalso
      apply hne
      have h3 := Option.some.inj h2
      have hx : x = 0 := by
        have := congrArg (fun l : List Int => l[1]?) h3
        simpa [enc, slowInts] using this.symm
      refine ⟨hx, ?_⟩
      have h4 := congrArg (fun l : List Int => (l.drop (2 + (ns.length + 1))).take (ns.length + 1)) h3
      beta_reduce at h4
      rw [enc_drop3 x ns ks arcs hk] at h4
      unfold slowInts at h4
      simp only [List.append_assoc, List.cons_append, List.nil_append] at h4
      rw [show 2 + (ns.length + 1) = ns.length + 1 + 2 by omega] at h4
      simp only [List.drop_succ_cons] at h4
      rw [List.drop_append_of_le_length (by simp), List.drop_of_length_le (by simp), List.nil_append,
        List.take_append_of_le_length (by simp), List.take_of_length_le (by simp)] at h4
      have : Function.Injective (fun y : Nat => (y : Int)) := fun a b h => by simpa using h
      exact List.map_injective_iff.mpr this h4
    · intro h2; exact absurd h2 hne

/-- What is accepted is always a well-formed vector of FSAs with the arcs of the tensor. -/
theorem fromTensor_layout (t : List Int) (v : RawVec) (h : fromTensor t = some v) :
    ∃ ns ms, v = ⟨psum ns, idsFrom 0 ns, psum ms, idsFrom 0 ms, v.arcs⟩ ∧ ms.length = ns.sum ∧
      ms.sum = v.arcs.length ∧ t.drop (2 + (ns.length + 1) * 2) = (v.arcs.map arcInts).flatten := by
  obtain ⟨x, ns, ks, arcs, rfl, hk, hs, hf⟩ := fromTensor_parts t v h
  obtain ⟨ms, hR, rfl⟩ := (finish_iff ns ks arcs hk hs v).mp hf
  exact ⟨ns, ms, rfl, hR.1, hR.2.1, enc_drop4 x ns ks arcs hk⟩

/-- **C13, disagreement.** The second integer is not checked: a tensor is accepted and written back
differently. -/
theorem fsaVec_meta_unchecked :
    ∃ t s, readBack t = some s ∧ toTensor s ≠ some t := by
  refine ⟨[1, 7, 0, 2, 0, 1, 0, 1, -1, 0], _, rfl, ?_⟩
  decide +kernel

/-- **C13, disagreement.** An arc of the first FSA whose source state is outside that FSA is accepted and
becomes an arc of the second FSA. -/
theorem fsaVec_arc_moves :
    fromTensor [2, 0, 0, 2, 4, 0, 1, 1, 2, 1, -1, 0] =
      some ⟨[0, 2, 4], [0, 0, 1, 1], [0, 0, 0, 1, 1], [2], [⟨2, 1, -1, 0⟩]⟩ := by
  decide +kernel

/-- **C13, disagreement.** The test for FSAs that were read from a tensor does not look at row_splits1.  If
it is stored in another region at the same offset then the states of that other tensor are written. -/
theorem fsaVec_fast_path_unsound :
    ∃ s : Stored, s.v = rawFlat [[[⟨0, 2, -1, 0⟩], [], []]] ∧
      toTensor s ≠ toTensor (fresh s.v) := by
  refine ⟨⟨rawFlat [[[⟨0, 2, -1, 0⟩], [], []]], [1, 0, 0, 2, 0, 1, 0, 2, -1, 0], 6, 2⟩, rfl, ?_⟩
  decide +kernel

/-- A concrete vector with an empty FSA in the middle that meets the hypothesis of the round trip. -/
example : toTensor (fresh (rawFlat [[[⟨0, 1, -1, 5⟩], []], [], [[⟨0, 0, 3, 1⟩, ⟨0, 1, -1, 2⟩], []]])) =
    some [3, 0, 0, 2, 2, 4, 0, 1, 1, 3, 0, 1, -1, 5, 0, 0, 3, 1, 0, 1, -1, 2] := by decide +kernel

/-! ## A single FSA -/

namespace Ten

theorem finalLoop_final (arcs : List (RArc Int)) (n : Int) (hn : ∀ a ∈ arcs, a.label = -1 → a.dst = n) :
    ∀ st : Int × Bool, st.2 = false → (st.1 = -1 ∨ st.1 = n) →
      finalLoop arcs st = ((if ∃ a ∈ arcs, a.label = -1 then n else st.1), false) := by
  induction arcs with
  | nil => intro st h1 _; rw [finalLoop, if_neg (by simp), ← h1]
  | cons a as ih =>
    intro st h1 h2
    have ih := ih (fun a ha => hn a (List.mem_cons_of_mem _ ha))
    rw [finalLoop]
    by_cases hl : a.label = -1
    · rw [if_pos hl, hn a List.mem_cons_self hl]
      have hflag : (st.2 || decide (0 ≤ st.1 ∧ st.1 ≠ n)) = false := by
        rw [h1, Bool.false_or, decide_eq_false_iff_not]
        rintro ⟨h3, h4⟩
        rcases h2 with h2 | h2
        · omega
        · exact h4 h2
      rw [ih _ hflag (Or.inr rfl),
        show (if ∃ b ∈ a :: as, b.label = -1 then n else st.1) = n from if_pos ⟨a, List.mem_cons_self, hl⟩]
      split <;> rfl
    · rw [if_neg hl, ih st h1 h2]
      congr 1
      have : (∃ b ∈ a :: as, b.label = -1) ↔ ∃ b ∈ as, b.label = -1 := by
        constructor
        · rintro ⟨b, hb, hbl⟩
          rcases List.mem_cons.mp hb with rfl | hb
          · exact absurd hbl hl
          · exact ⟨b, hb, hbl⟩
        · rintro ⟨b, hb, hbl⟩
          exact ⟨b, List.mem_cons_of_mem _ hb, hbl⟩
      by_cases h : ∃ b ∈ as, b.label = -1
      · rw [if_pos h, if_pos (this.mpr h)]
      · rw [if_neg h, if_neg (fun h' => h (this.mp h'))]

theorem oneProperties_eq (f : List (List (RArc Int))) : oneProperties (rawOne f) = some (flagsOf f) := by
  have h := fsaVecProperties_eq [f]
  have e1 : psum ([f].map List.length) = [0, f.length] := by simp [psum, psumFrom]
  have e2 : idsFrom 0 ([f].map List.length) = List.replicate f.length 0 := by simp [idsFrom]
  rw [e1, e2, List.flatten_singleton] at h
  unfold oneProperties rawOne
  simp only [psum_length, List.length_map, Nat.add_sub_cancel, h, Option.bind_eq_bind, Option.bind_some]
  simp only [List.map_cons, List.map_nil, totProperties, List.foldl_cons, List.foldl_nil, Flags.and, Flags.all,
    Bool.true_and]

theorem srcIds_eq (arcs : List (RArc Int)) (ids : List Nat) :
    srcIds arcs = some ids ↔ arcs.map RArc.src = ints ids ∧ ids.Pairwise (· ≤ ·) := by
  have key : ∀ l : List Nat, (l.zip l.tail).all (fun p => decide (p.1 ≤ p.2)) = true ↔ l.Pairwise (· ≤ ·) := by
    intro l
    rw [pairwise_of_adjacent (fun a b : Nat => a ≤ b) (fun a b c h1 h2 => Nat.le_trans h1 h2), List.all_eq_true]
    constructor
    · intro h k b a hb ha
      have := h (b, a) (List.mem_of_getElem? (i := k) (by
        rw [List.getElem?_zip_eq_some]
        exact ⟨hb, by rw [List.getElem?_tail]; exact ha⟩))
      simpa using this
    · intro h p hp
      obtain ⟨k, hk⟩ := List.getElem?_of_mem hp
      rw [List.getElem?_zip_eq_some, List.getElem?_tail] at hk
      exact decide_eq_true (h k _ _ hk.1 hk.2)
  unfold srcIds
  simp only [Option.bind_eq_bind]
  rw [Option.bind_eq_some_iff]
  constructor
  · rintro ⟨l, h1, h2⟩
    split at h2
    · next h3 => obtain rfl := Option.some.inj h2
                 exact ⟨(nats_iff _ _).mp h1, (key _).mp h3⟩
    · simp at h2
  · rintro ⟨h1, h2⟩
    exact ⟨ids, (nats_iff _ _).mpr h1, by rw [if_pos ((key _).mpr h2)]⟩

theorem srcIds_rows (f : List (List (RArc Int)))
    (hf : ∀ (s : Nat) (row : List (RArc Int)), f[s]? = some row → ∀ a ∈ row, a.src = s) :
    srcIds f.flatten = some (idsFrom 0 (f.map List.length)) := by
  rw [srcIds_eq]
  refine ⟨?_, idsFrom_pairwise _ _⟩
  have key : ∀ (f : List (List (RArc Int))) (b : Nat),
      (∀ (s : Nat) (row : List (RArc Int)), f[s]? = some row → ∀ a ∈ row, a.src = (b + s : Nat)) →
      f.flatten.map RArc.src = ints (idsFrom b (f.map List.length)) := by
    intro f
    induction f with
    | nil => intro b _; rfl
    | cons row f ih =>
      intro b h
      rw [List.flatten_cons, List.map_append, ih (b + 1) (fun s r hr a ha => by
        rw [h (s + 1) r (by simpa using hr) a ha]; push_cast; omega), List.map_cons, idsFrom, ints, ints,
        List.map_append, List.map_replicate]
      congr 1
      apply List.eq_replicate_iff.mpr
      refine ⟨by simp, ?_⟩
      intro x hx
      obtain ⟨a, ha, rfl⟩ := List.mem_map.mp hx
      have := h 0 row rfl a ha
      simpa using this
  exact key f 0 (fun s row hs a ha => by rw [hf s row hs a ha]; simp)

theorem mapM_rowArc (arcs : List (RArc Int)) : (arcs.map arcInts).mapM rowArc = some arcs := by
  apply mapM_some_of
  · simp
  intro i b hb
  rw [List.getElem?_map] at hb
  obtain ⟨a, ha, rfl⟩ := Option.map_eq_some_iff.mp hb
  rw [ha]; rfl

end Ten

/-- **C13, part.** Writing an FSA as a tensor and reading it back gives the same FSA if it is valid and has an
arc that enters the final state. -/
theorem fsa_roundtrip_partial (f : List (List (RArc Int))) (hv : SpecValid f)
    (hfin : ∃ a ∈ f.flatten, a.label = -1) (h2 : 2 ≤ f.length) :
    oneFromTensor (oneToTensor f) = some (rawOne f) := by
  have hdst : ∀ a ∈ f.flatten, a.label = -1 → a.dst = (f.length : Int) - 1 := by
    intro a ha hl
    obtain ⟨row, hr, ha⟩ := List.mem_flatten.mp ha
    obtain ⟨s, hs⟩ := List.getElem?_of_mem hr
    exact (hv s row hs a ha).2.2.2.2.mp hl
  have hl := finalLoop_final f.flatten _ hdst (-1, false) rfl (Or.inl rfl)
  rw [if_pos hfin] at hl
  have hsrc := srcIds_rows f (fun s row hs a ha => (hv s row hs a ha).1)
  have hsp := rowIdsToRowSplits_idsFrom (f.map List.length)
  rw [List.length_map] at hsp
  unfold oneFromTensor oneToTensor
  simp only [mapM_rowArc, Option.bind_eq_bind, Option.bind_some]
  unfold fromArcs
  rw [hl]
  obtain ⟨a, ha, _⟩ := hfin
  rw [if_neg (fun h => by rw [h] at ha; simp at ha), if_neg (by simp), if_neg (by show ¬ ((f.length : Int) - 1 ≤ 0); omega)]
  have hfn : ((f.length : Int) - 1).toNat + 1 = f.length := by omega
  unfold build
  simp only [hsrc, hfn, hsp, Option.bind_eq_bind, Option.bind_some]
  rw [show (⟨psum (f.map List.length), idsFrom 0 (f.map List.length), f.flatten⟩ : RawFsa) = rawOne f from rfl,
    oneProperties_eq, Option.bind_some, if_pos]
  exact ⟨(valid_iff f).mpr hv, (nonempty_iff f).mpr (fun h => by rw [h] at ha; simp at ha)⟩

/-- **C13, disagreement.** A valid FSA none of whose arcs enters the final state cannot be read back,
although the comment at fsa.cu 249-252 says which final state it gets. -/
theorem fsa_no_final_arc : SpecValid ([[⟨0, 1, 5, 0⟩], [], []] : List (List (RArc Int))) ∧
    oneFromTensor (oneToTensor [[⟨0, 1, 5, 0⟩], [], []]) = none := by
  constructor
  · rw [← valid_iff]; decide +kernel
  · decide +kernel

/-- **C13, disagreement.** Nor can an FSA without arcs. -/
theorem fsa_no_arcs (f : List (List (RArc Int))) (h : f.flatten = []) : oneFromTensor (oneToTensor f) = none := by
  unfold oneFromTensor oneToTensor
  rw [h]
  rfl

/-- **C13.** What is accepted is valid, not empty, and is written back unchanged. -/
theorem fsa_accepted (t : List (List Int)) (g : RawFsa) (h : oneFromTensor t = some g) :
    g.arcs.map arcInts = t ∧ ∃ p, oneProperties g = some p ∧ p.valid = true ∧ p.nonempty = true := by
  unfold oneFromTensor at h
  simp only [Option.bind_eq_bind] at h
  obtain ⟨arcs, ha, h⟩ := Option.bind_eq_some_iff.mp h
  have ht : arcs.map arcInts = t := by
    obtain ⟨hl, hg⟩ := mapM_get ha
    apply List.ext_getElem?
    intro i
    rw [List.getElem?_map]
    by_cases hi : i < t.length
    · have h1 := hg i _ (List.getElem?_eq_getElem hi)
      rw [h1, List.getElem?_eq_getElem hi]
      have h2 : rowArc t[i] ≠ none := by
        rw [← h1, List.getElem?_eq_getElem (by omega)]; simp
      match hti : t[i], h2 with
      | [s, d, l, w], _ => rfl
      | [], h2 => exact absurd rfl h2
      | [_], h2 => exact absurd rfl h2
      | [_, _], h2 => exact absurd rfl h2
      | [_, _, _], h2 => exact absurd rfl h2
      | _ :: _ :: _ :: _ :: _ :: _, h2 => exact absurd rfl h2
    · rw [List.getElem?_eq_none (by omega), List.getElem?_eq_none (by omega)]; rfl
  unfold fromArcs at h
  split at h
  · simp at h
  split at h
  · simp at h
  split at h
  · simp at h
  unfold build at h
  simp only [Option.bind_eq_bind] at h
  obtain ⟨ids, _, h⟩ := Option.bind_eq_some_iff.mp h
  obtain ⟨sp, _, h⟩ := Option.bind_eq_some_iff.mp h
  obtain ⟨p, hp, h⟩ := Option.bind_eq_some_iff.mp h
  split at h
  · next hvn =>
    obtain rfl := Option.some.inj h
    exact ⟨ht, p, hp, hvn.1, hvn.2⟩
  · simp at h

/-- A concrete FSA that meets the hypotheses of the round trip. -/
example : SpecValid ([[⟨0, 1, 5, 7⟩, ⟨0, 2, -1, 0⟩], [⟨1, 2, -1, 3⟩], []] : List (List (RArc Int))) ∧
    oneFromTensor [[0, 1, 5, 7], [0, 2, -1, 0], [1, 2, -1, 3]] =
      some ⟨[0, 2, 3, 3], [0, 0, 1], [⟨0, 1, 5, 7⟩, ⟨0, 2, -1, 0⟩, ⟨1, 2, -1, 3⟩]⟩ := by
  constructor
  · rw [← valid_iff]; decide +kernel
  · decide +kernel

end Verif.Fsa
