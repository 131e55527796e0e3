import Verif.Fsa.Tensor.Model
import Verif.Ragged.AxisProps
import Verif.Fsa.Flags.Props
import Verif.Fsa.Vec.Lemmas

/-!
# Lemmas on the tensor functions
-/

namespace Verif.Fsa.Ten
open Verif.Ragged Verif.Util

/-! ## Parts of the tensor -/

@[simp] theorem ints_length (l : List Nat) : (ints l).length = l.length := by simp [ints]

@[simp] theorem ints_nil : ints [] = [] := rfl

@[simp] theorem ints_cons (x : Nat) (l : List Nat) : ints (x :: l) = (x : Int) :: ints l := rfl

theorem intsArcs_iff (l : List Int) (as : List (RArc Int)) :
    intsArcs l = some as ↔ l = (as.map arcInts).flatten := by
  induction l using intsArcs.induct generalizing as with
  | case1 =>
    rw [intsArcs]
    cases as with
    | nil => simp
    | cons a as => simp [arcInts]
  | case2 s d l w rest ih =>
    rw [intsArcs]
    cases as with
    | nil =>
      simp only [Option.bind_eq_bind, List.map_nil, List.flatten_nil, reduceCtorEq, iff_false]
      intro h
      obtain ⟨x, _, h⟩ := Option.bind_eq_some_iff.mp h
      simp at h
    | cons a as =>
      simp only [Option.bind_eq_bind, List.map_cons, List.flatten_cons, arcInts, List.cons_append,
        List.nil_append, List.cons.injEq]
      rw [Option.bind_eq_some_iff]
      constructor
      · rintro ⟨x, hx, h⟩
        simp only [Option.some.injEq, List.cons.injEq] at h
        obtain ⟨rfl, rfl⟩ := h
        exact ⟨rfl, rfl, rfl, rfl, (ih _).mp hx⟩
      · rintro ⟨rfl, rfl, rfl, rfl, h⟩
        exact ⟨as, (ih _).mpr h, rfl⟩
  | case3 l h1 h2 =>
    have : intsArcs l = none := by
      match l, h1, h2 with
      | [], h1, _ => exact absurd rfl h1
      | [a], _, _ => rfl
      | [a, b], _, _ => rfl
      | [a, b, c], _, _ => rfl
      | a :: b :: c :: d :: rest, _, h2 => exact absurd rfl (h2 a b c d rest)
    rw [this]
    simp only [reduceCtorEq, false_iff]
    rintro rfl
    cases as with
    | nil => exact h1 rfl
    | cons a as => exact h2 _ _ _ _ _ rfl

theorem nats_iff (l : List Int) (rs : List Nat) : nats l = some rs ↔ l = ints rs := by
  unfold nats
  induction l generalizing rs with
  | nil =>
    rw [List.mapM_nil]
    cases rs <;> simp
  | cons x l ih =>
    rw [List.mapM_cons]
    simp only [Option.bind_eq_bind]
    by_cases hx : x < 0
    · rw [if_pos hx, Option.bind_none]
      simp only [reduceCtorEq, false_iff]
      cases rs with
      | nil => simp
      | cons r rs =>
        simp only [ints_cons, List.cons.injEq, not_and]
        intro h; omega
    · rw [if_neg hx, Option.bind_some, Option.bind_eq_some_iff]
      cases rs with
      | nil =>
        simp only [ints_nil, reduceCtorEq, iff_false]
        rintro ⟨y, _, h⟩
        simp at h
      | cons r rs =>
        constructor
        · rintro ⟨y, h1, h⟩
          have h : x.toNat :: y = r :: rs := Option.some.inj h
          obtain ⟨h2, rfl⟩ := List.cons.inj h
          rw [ints_cons, ← (ih y).mp h1]
          congr 1; omega
        · intro h
          obtain ⟨h1, h2⟩ := List.cons.inj h
          refine ⟨rs, (ih rs).mpr h2, ?_⟩
          show some (x.toNat :: rs) = _
          rw [h1]; rfl

theorem splitsOf_iff (l : List Int) (rs : List Nat) :
    splitsOf l = some rs ↔ l = ints rs ∧ ValidSplits rs := by
  unfold splitsOf
  simp only [Option.bind_eq_bind]
  rw [Option.bind_eq_some_iff]
  constructor
  · rintro ⟨y, h1, h2⟩
    split at h2
    · next h => obtain rfl := Option.some.inj h2
                exact ⟨(nats_iff _ _).mp h1, (validRowSplits_iff _).mp h⟩
    · simp at h2
  · rintro ⟨h1, h2⟩
    exact ⟨rs, (nats_iff _ _).mpr h1, by rw [if_pos ((validRowSplits_iff _).mpr h2)]⟩

/-- The integers of a tensor with the given parts. -/
def enc (x : Int) (ns ks : List Nat) (arcs : List (RArc Int)) : List Int :=
  [(ns.length : Int), x] ++ ints (psum ns) ++ ints (psum ks) ++
    (arcs.map arcInts).flatten

theorem enc_drop2 (x : Int) (ns ks : List Nat) (arcs : List (RArc Int)) :
    ((enc x ns ks arcs).drop 2).take (ns.length + 1) = ints (psum ns) := by
  unfold enc
  simp only [List.append_assoc, List.cons_append, List.nil_append, List.drop_succ_cons, List.drop_zero]
  rw [List.take_append_of_le_length (by simp), List.take_of_length_le (by simp)]

theorem enc_drop3 (x : Int) (ns ks : List Nat) (arcs : List (RArc Int)) (hk : ks.length = ns.length) :
    ((enc x ns ks arcs).drop (2 + (ns.length + 1))).take (ns.length + 1) = ints (psum ks) := by
  unfold enc
  simp only [List.append_assoc, List.cons_append, List.nil_append]
  rw [show 2 + (ns.length + 1) = ns.length + 1 + 2 by omega]
  simp only [List.drop_succ_cons, List.drop_zero]
  rw [List.drop_append_of_le_length (by simp), List.drop_of_length_le (by simp), List.nil_append,
    List.take_append_of_le_length (by simp [hk]), List.take_of_length_le (by simp [hk])]

theorem enc_drop4 (x : Int) (ns ks : List Nat) (arcs : List (RArc Int)) (hk : ks.length = ns.length) :
    (enc x ns ks arcs).drop (2 + (ns.length + 1) * 2) = (arcs.map arcInts).flatten := by
  unfold enc
  rw [List.drop_append_of_le_length (by simp [hk]; omega), List.drop_of_length_le (by simp [hk]; omega),
    List.nil_append]

theorem enc_length (x : Int) (ns ks : List Nat) (arcs : List (RArc Int)) (hk : ks.length = ns.length) :
    (enc x ns ks arcs).length = 2 + (ns.length + 1) * 2 + arcs.length * 4 := by
  unfold enc
  have : (arcs.map arcInts).flatten.length = arcs.length * 4 := by
    induction arcs with
    | nil => rfl
    | cons a as ih =>
      rw [List.map_cons, List.flatten_cons, List.length_append, ih, List.length_cons]
      show 4 + _ = _
      omega
  simp only [List.length_append, ints_length, psum_length, this, hk, List.length_cons, List.length_nil]
  omega

theorem fromTensor_enc (x : Int) (ns ks : List Nat) (arcs : List (RArc Int)) (hk : ks.length = ns.length)
    (hs : ks.sum = arcs.length) :
    fromTensor (enc x ns ks arcs) = finish ns.length (psum ns) (psum ks) arcs := by
  have h1 := (intsArcs_iff _ arcs).mpr (enc_drop4 x ns ks arcs hk)
  have h2 := (splitsOf_iff _ (psum ns)).mpr ⟨enc_drop2 x ns ks arcs, validSplits_psum ns⟩
  have h3 := (splitsOf_iff _ (psum ks)).mpr ⟨enc_drop3 x ns ks arcs hk, validSplits_psum ks⟩
  have h4 : (enc x ns ks arcs)[0]? = some (ns.length : Int) := rfl
  have h5 := enc_length x ns ks arcs hk
  have h6 : (psum ks)[ns.length]? = some arcs.length := by
    rw [← hk, psum_get _ _ (Nat.le_refl _), List.take_length, hs]
  unfold fromTensor
  simp only [h4, Option.bind_eq_bind, Option.bind_some]
  rw [if_neg (by omega), Int.toNat_natCast]
  unfold decode
  simp only [h1, h2, h3, Option.bind_eq_bind, Option.bind_some]
  rw [if_pos h6]

/-- Every tensor that is accepted has the expected parts. -/
theorem fromTensor_parts (t : List Int) (v : RawVec) (h : fromTensor t = some v) :
    ∃ x ns ks arcs, t = enc x ns ks arcs ∧ ks.length = ns.length ∧ ks.sum = arcs.length ∧
      finish ns.length (psum ns) (psum ks) arcs = some v := by
  unfold fromTensor at h
  simp only [Option.bind_eq_bind] at h
  obtain ⟨n, hn, h⟩ := Option.bind_eq_some_iff.mp h
  split at h
  · simp at h
  next hlt =>
  obtain ⟨n, rfl⟩ : ∃ k : Nat, n = k := ⟨n.toNat, by omega⟩
  rw [Int.toNat_natCast] at h
  unfold decode at h
  simp only [Option.bind_eq_bind] at h
  obtain ⟨arcs, ha, h⟩ := Option.bind_eq_some_iff.mp h
  obtain ⟨sp1, h1, h⟩ := Option.bind_eq_some_iff.mp h
  obtain ⟨sp12, h2, h⟩ := Option.bind_eq_some_iff.mp h
  split at h
  on_goal 2 => simp at h
  next hlast =>
  have hfin := h
  clear h
  obtain ⟨h1, hv1⟩ := (splitsOf_iff _ _).mp h1
  obtain ⟨h2, hv2⟩ := (splitsOf_iff _ _).mp h2
  rw [intsArcs_iff] at ha
  obtain ⟨ns, rfl, _⟩ := hv1.sizes
  obtain ⟨ks, rfl, _⟩ := hv2.sizes
  have hl1 : ns.length = n := by
    have := congrArg List.length h1
    simp only [List.length_take, List.length_drop, ints_length, psum_length] at this
    omega
  have hl2 : ks.length = n := by
    have := congrArg List.length h2
    simp only [List.length_take, List.length_drop, ints_length, psum_length] at this
    omega
  subst hl1
  rw [psum_get _ _ (by omega), ← hl2, List.take_length] at hlast
  obtain ⟨x, rest, rfl⟩ : ∃ x rest, t = (ns.length : Int) :: x :: rest := by
    match t, hn, hlt with
    | [], hn, _ => simp at hn
    | [y], _, hlt => simp at hlt; omega
    | y :: x :: rest, hn, _ =>
      simp at hn
      exact ⟨x, rest, by rw [hn]⟩
  refine ⟨x, ns, ks, arcs, ?_, hl2, Option.some.inj hlast, hfin⟩
  unfold enc
  have e1 : ints (psum ns) = rest.take (ns.length + 1) := by rw [← h1]; rfl
  have e2 : ints (psum ks) = (rest.drop (ns.length + 1)).take (ns.length + 1) := by
    rw [← h2, show 2 + (ns.length + 1) = ns.length + 1 + 2 by omega]
    rfl
  have e3 : (arcs.map arcInts).flatten = (rest.drop (ns.length + 1)).drop (ns.length + 1) := by
    rw [← ha, show 2 + (ns.length + 1) * 2 = (ns.length + 1) + (ns.length + 1) + 2 by omega, List.drop_drop]
    rfl
  rw [e1, e2, e3, List.append_assoc, List.append_assoc, List.take_append_drop, List.take_append_drop]
  rfl

/-! ## The row ids of the arcs -/

theorem validSplitsAndIds_psum (ms : List Nat) : validSplitsAndIds (psum ms) (idsFrom 0 ms) = true := by
  unfold validSplitsAndIds
  rw [Bool.and_eq_true, Bool.and_eq_true, Bool.and_eq_true]
  refine ⟨⟨⟨decide_eq_true ?_, decide_eq_true (psumFrom_head 0 ms)⟩, decide_eq_true ?_⟩, ?_⟩
  · intro h
    have := congrArg List.length h
    simp at this
  · rw [psum_last, idsFrom_length]
  · rw [List.all_eq_true]
    intro i _
    unfold checkAt
    rw [Bool.and_eq_true, Bool.and_eq_true]
    refine ⟨⟨?_, ?_⟩, ?_⟩
    · split
      · next x y hx hy =>
        exact decide_eq_true (List.pairwise_iff_getElem.mp (psumFrom_pairwise 0 ms) i (i + 1)
          (List.getElem?_eq_some_iff.mp hx).1 (List.getElem?_eq_some_iff.mp hy).1 (by omega) |> fun h => by
            rw [← (List.getElem?_eq_some_iff.mp hx).2, ← (List.getElem?_eq_some_iff.mp hy).2]; exact h)
      · rfl
    · split
      · next x y hx hy =>
        exact decide_eq_true (List.pairwise_iff_getElem.mp (idsFrom_pairwise 0 ms) i (i + 1)
          (List.getElem?_eq_some_iff.mp hx).1 (List.getElem?_eq_some_iff.mp hy).1 (by omega) |> fun h => by
            rw [← (List.getElem?_eq_some_iff.mp hx).2, ← (List.getElem?_eq_some_iff.mp hy).2]; exact h)
      · rfl
    · split
      · rfl
      · next r hr =>
        rw [← Nat.zero_add r] at hr
        obtain ⟨h1, h2, h3⟩ := (idsFrom_get 0 ms i r).mp hr
        have g1 := psum_get ms r (by omega)
        have g2 := psum_get ms (r + 1) (by omega)
        simp only [g1, g2]
        exact decide_eq_true ⟨h2, h3⟩

/-- The row of arc `i`. -/
def Rows (ns ks : List Nat) (arcs : List (RArc Int)) (ms : List Nat) : Prop :=
  ms.length = ns.sum ∧ ms.sum = arcs.length ∧
    ∀ (i r : Nat) (a : RArc Int), (idsFrom 0 ks)[i]? = some r → arcs[i]? = some a →
      ∃ g : Nat, (idsFrom 0 ms)[i]? = some g ∧ (g : Int) = (ns.take r).sum + a.src

theorem rowId2_iff (ns ks : List Nat) (arcs : List (RArc Int)) (i r : Nat) (a : RArc Int) (g : Nat)
    (hk : ks.length = ns.length) (hr : (idsFrom 0 ks)[i]? = some r) (ha : arcs[i]? = some a) :
    rowId2 (psum ns) (idsFrom 0 ks) arcs i = some g ↔ (g : Int) = (ns.take r).sum + a.src := by
  have hrl : r < ns.length := by
    have := idsFrom_mem 0 ks r (List.mem_of_getElem? hr)
    omega
  have f1 := psum_get ns r (by omega)
  unfold rowId2
  simp only [hr, f1, ha, Option.bind_eq_bind, Option.bind_some]
  split
  · next h => simp only [reduceCtorEq, false_iff]; omega
  · next h => rw [Option.some.injEq]; omega

theorem finish_iff (ns ks : List Nat) (arcs : List (RArc Int)) (hk : ks.length = ns.length)
    (hs : ks.sum = arcs.length) (v : RawVec) :
    finish ns.length (psum ns) (psum ks) arcs = some v ↔
      ∃ ms, Rows ns ks arcs ms ∧ v = ⟨psum ns, idsFrom 0 ns, psum ms, idsFrom 0 ms, arcs⟩ := by
  have f1 := psum_get ns ns.length (Nat.le_refl _)
  rw [List.take_length] at f1
  have f2 := rowSplitsToRowIds_psum ns
  have f3 := rowSplitsToRowIds_psum ks
  rw [hs] at f3
  have hat : ∀ i, i < arcs.length → ∃ r a, (idsFrom 0 ks)[i]? = some r ∧ arcs[i]? = some a := by
    intro i hi
    exact ⟨_, _, List.getElem?_eq_getElem (by rw [idsFrom_length, hs]; exact hi), List.getElem?_eq_getElem hi⟩
  unfold finish
  simp only [f1, f2, f3, Option.bind_eq_bind, Option.bind_some]
  constructor
  · intro h
    obtain ⟨id2, h1, h⟩ := Option.bind_eq_some_iff.mp h
    obtain ⟨sp2, h2, h⟩ := Option.bind_eq_some_iff.mp h
    split at h
    on_goal 2 => simp at h
    next hv =>
    obtain ⟨hlen, hget⟩ := mapM_get h1
    rw [List.length_range] at hlen
    have hlast : ∀ x, id2.getLast? = some x → x < ns.sum := by
      intro x hx
      unfold idsToSplits at h2
      rw [hx] at h2
      simp only at h2
      by_contra hc
      rw [if_neg hc] at h2
      simp at h2
    have h2' : rowIdsToRowSplits id2 ns.sum = some sp2 := by
      unfold idsToSplits at h2
      split at h2
      · exact h2
      · split at h2
        · exact h2
        · simp at h2
    have hpw : id2.Pairwise (· ≤ ·) := by
      by_contra hc
      rw [rowIdsToRowSplits_decreasing _ _ hc] at h2'
      simp at h2'
    have hall : ∀ x ∈ id2, x < ns.sum := by
      intro x hx
      cases hl : id2.getLast? with
      | none =>
        rw [List.getLast?_eq_none_iff] at hl
        rw [hl] at hx; simp at hx
      | some y =>
        have h3 := hlast y hl
        obtain ⟨i, hi⟩ := List.getElem?_of_mem hx
        obtain ⟨hi1, hi2⟩ := List.getElem?_eq_some_iff.mp hi
        rw [List.getLast?_eq_getElem?] at hl
        obtain ⟨hj1, hj2⟩ := List.getElem?_eq_some_iff.mp hl
        rcases Nat.lt_or_ge i (id2.length - 1) with hlt | hge
        · have := List.pairwise_iff_getElem.mp hpw i (id2.length - 1) hi1 hj1 hlt
          rw [hi2, hj2] at this; omega
        · have : i = id2.length - 1 := by omega
          subst this
          rw [hi2] at hj2; omega
    have hids := ids_eq_idsFrom id2 ns.sum hpw hall
    set ms := (List.range ns.sum).map (fun r => id2.count r) with hms
    have hml : ms.length = ns.sum := by rw [hms]; simp
    rw [hids, ← hml, rowIdsToRowSplits_idsFrom] at h2'
    obtain rfl := Option.some.inj h2'
    refine ⟨ms, ⟨hml, by rw [← idsFrom_length 0, ← hids, hlen], ?_⟩, ?_⟩
    · intro i r a hr ha
      have hi := (List.getElem?_eq_some_iff.mp ha).1
      have h4 := hget i i (List.getElem?_range hi)
      rw [List.getElem?_eq_getElem (by omega)] at h4
      refine ⟨_, by rw [← hids]; exact List.getElem?_eq_getElem (by omega), ?_⟩
      exact (rowId2_iff ns ks arcs i r a _ hk hr ha).mp h4.symm
    · obtain rfl := Option.some.inj h
      rw [← hids]
  · rintro ⟨ms, ⟨hml, hms, hrow⟩, rfl⟩
    have h1 : (List.range arcs.length).mapM (rowId2 (psum ns) (idsFrom 0 ks) arcs) = some (idsFrom 0 ms) := by
      apply mapM_some_of
      · rw [List.length_range, idsFrom_length, hms]
      intro i b hb
      obtain ⟨hlt, hb⟩ := List.getElem?_eq_some_iff.mp hb; rw [List.getElem_range] at hb; subst hb
      rw [List.length_range] at hlt
      obtain ⟨r, a, hr, ha⟩ := hat i hlt
      obtain ⟨g, hg, hgs⟩ := hrow i r a hr ha
      rw [hg]
      exact (rowId2_iff ns ks arcs i r a g hk hr ha).mpr hgs
    have h2 : idsToSplits (idsFrom 0 ms) ns.sum = some (psum ms) := by
      have h3 := rowIdsToRowSplits_idsFrom ms
      rw [hml] at h3
      unfold idsToSplits
      split
      · exact h3
      · next x hx =>
        have := idsFrom_mem 0 ms x (List.mem_of_getLast? hx)
        rw [if_pos (by omega)]
        exact h3
    simp only [h1, h2, Option.bind_some]
    rw [if_pos (validSplitsAndIds_psum ms)]

end Verif.Fsa.Ten
