import Verif.Ragged.StackModel
import Verif.Ragged.AxisProps
import Verif.Util.MapM

/-!
# C08 (axis 0): stacking is making a list, concatenating is appending
-/

namespace Verif.Ragged
open Verif.Util
variable {α : Type}

/-! ## Sizes per level -/

/-- The row sizes of each layer. -/
def levelSizes : (n : Nat) → List (Nest α n) → List (List Nat)
  | 0, _ => []
  | n + 1, T => List.map (List.length (α := Nest α n)) T ::
      levelSizes n (List.flatten (α := Nest α n) T)

theorem fullLayers_levelSizes (n : Nat) (T : List (Nest α n)) :
    fullLayers n T = (levelSizes n T).map (fun ns => (psum ns, idsFrom 0 ns)) := by
  induction n with
  | zero => rfl
  | succ n ih => rw [fullLayers_succ, levelSizes, List.map_cons, ih]

theorem levelSizes_length (n : Nat) (T : List (Nest α n)) : (levelSizes n T).length = n := by
  induction n with
  | zero => rfl
  | succ n ih => rw [levelSizes, List.length_cons, ih]

/-- The row sizes at one level, empty past the end. -/
def sizesAt (n : Nat) (T : List (Nest α n)) (a : Nat) : List Nat := ((levelSizes n T)[a]?).getD []

/-- The number of elements on an axis. -/
def totAt (n : Nat) (T : List (Nest α n)) (a : Nat) : Nat :=
  match a with
  | 0 => T.length
  | a + 1 => (sizesAt n T a).sum

theorem sizesAt_flatten (n : Nat) (Ts : List (List (Nest α n))) (a : Nat) :
    sizesAt n Ts.flatten a = (Ts.map (fun T => sizesAt n T a)).flatten := by
  induction n generalizing a with
  | zero => simp [sizesAt, levelSizes]
  | succ n ih =>
    cases a with
    | zero =>
      simp only [sizesAt, levelSizes, List.getElem?_cons_zero, Option.getD_some]
      exact List.map_flatten
    | succ a =>
      have h1 : ∀ T : List (Nest α (n + 1)), sizesAt (n + 1) T (a + 1) = sizesAt n T.flatten a :=
        fun T => rfl
      rw [h1, List.flatten_flatten, ih, List.map_map]
      rfl

theorem sizesAt_rows (n : Nat) (T : List (Nest α n)) (a : Nat) (h : a < n) :
    (sizesAt n T a).length = totAt n T a := by
  induction n generalizing a with
  | zero => omega
  | succ n ih =>
    cases a with
    | zero => simp [sizesAt, levelSizes, totAt]
    | succ a =>
      have h1 : sizesAt (n + 1) T (a + 1) = sizesAt n T.flatten a := rfl
      rw [h1, ih T.flatten a (by omega)]
      cases a with
      | zero => simp [totAt, sizesAt, levelSizes, List.length_flatten]
      | succ a => rfl

theorem fullLayers_get (n : Nat) (T : List (Nest α n)) (a : Nat) (h : a < n) :
    (fullLayers n T)[a]? = some (psum (sizesAt n T a), idsFrom 0 (sizesAt n T a)) := by
  rw [fullLayers_levelSizes, List.getElem?_map, sizesAt,
    List.getElem?_eq_getElem (by rw [levelSizes_length]; exact h)]
  rfl

theorem totSize_fullLayers (n : Nat) (T : List (Nest α n)) (a : Nat) (hn : 0 < n) (h : a ≤ n) :
    totSize (fullLayers n T) a = some (totAt n T a) := by
  unfold totSize
  cases a with
  | zero =>
    rw [if_pos rfl, fullLayers_get n T 0 hn, Option.map_some, psum_length, sizesAt_rows n T 0 hn]
    rfl
  | succ a =>
    rw [if_neg (by omega), Nat.add_sub_cancel, fullLayers_get n T a (by omega), Option.map_some,
      psum_getLastD]
    rfl

theorem runningSums_eq (a : Nat) (ns : List Nat) : runningSums a ns = psumFrom a ns := by
  induction ns generalizing a with
  | nil => rfl
  | cons n ns ih => rw [runningSums, psumFrom, ih]

theorem offsetsRow_eq (n : Nat) (Ts : List (List (Nest α n))) (a : Nat) (hn : 0 < n) (h : a ≤ n) :
    offsetsRow (Ts.map (fullLayers n)) (a + 1) = some (psum (Ts.map (fun T => totAt n T a))) := by
  unfold offsetsRow
  have : (Ts.map (fullLayers n)).mapM
      (fun s => if a + 1 = 0 then some 1 else totSize s (a + 1 - 1)) =
      some (Ts.map (fun T => totAt n T a)) := by
    apply mapM_some_of
    · simp
    intro i s hs
    rw [List.getElem?_map] at hs ⊢
    obtain ⟨T, hT, rfl⟩ := Option.map_eq_some_iff.mp hs
    rw [hT, if_neg (by omega), Nat.add_sub_cancel, totSize_fullLayers n T a hn h, Option.map_some]
  rw [this]
  simp only [Option.bind_eq_bind, Option.bind_some, runningSums_eq, psum]

theorem composedIds_psum (ns : List Nat) : composedIds (psum ns) = some (idsFrom 0 ns) := by
  rw [composedIds, psum_getLastD, rowSplitsToRowIds_psum]

/-! ## One layer -/

theorem splits_eq_take {X : Type} (L : List (List X)) (s : Nat) :
    splits L s = ((L.map List.length).take s).sum := by
  rw [splits, List.map_take]

theorem comp_get {X : Type} (L : List (List X)) (j : Nat) (r : List X) (k : Nat) (h : L[j]? = some r)
    (hk : k < r.length) : (idsFrom 0 (L.map List.length))[splits L j + k]? = some j := by
  have := (idsFrom_get 0 (L.map List.length) (splits L j + k) j).mpr (by
    refine ⟨by rw [List.length_map]; exact (List.getElem?_eq_some_iff.mp h).1, ?_, ?_⟩
    · rw [← splits_eq_take]; omega
    · rw [← splits_eq_take, splits_succ L j r h]; omega)
  rwa [Nat.zero_add] at this

theorem take_flatten_at {X : Type} (L : List (List X)) (j : Nat) (r : List X) (k : Nat)
    (h : L[j]? = some r) (hk : k ≤ r.length) :
    L.flatten.take (splits L j + k) = (L.take j).flatten ++ r.take k := by
  have hj := (List.getElem?_eq_some_iff.mp h).1
  have h1 : L = L.take j ++ r :: L.drop (j + 1) := by
    conv_lhs => rw [← List.take_append_drop j L, List.drop_eq_getElem_cons hj,
      (List.getElem?_eq_some_iff.mp h).2]
  have h2 : splits L j = (L.take j).flatten.length := by rw [List.length_flatten, splits]
  conv_lhs => rw [h2, h1]
  have h3 : (L.take j).flatten = ((L.take j ++ r :: L.drop (j + 1)).take j).flatten := by
    rw [← h1]
  rw [← h3, List.flatten_append, List.flatten_cons, List.take_append, List.take_of_length_le (by omega),
    Nat.add_sub_cancel_left, List.take_append_of_le_length hk]

theorem stackSplits_layer (NS : List (List Nat)) (i : Nat) (hi : i ≤ NS.flatten.length) :
    (if i = NS.flatten.length then (psum (NS.map List.sum))[NS.length]?
      else do
        let j ← (idsFrom 0 (NS.map List.length))[i]?
        let b ← (psum (NS.map List.length))[j]?
        let o ← (psum (NS.map List.sum))[j]?
        let ns ← NS[j]?
        let v ← (psum ns)[i - b]?
        some (o + v)) = (psum NS.flatten)[i]? := by
  rw [psum_get NS.flatten i hi]
  split
  · next h =>
    rw [psum_get _ _ (by simp), h, List.take_length, List.take_of_length_le (by simp), List.sum_flatten]
  · next h =>
    obtain ⟨j, r, k, h1, h2, h3⟩ := flatten_pos NS i (by omega)
    have hj := (List.getElem?_eq_some_iff.mp h1).1
    have e1 := comp_get NS j r k h1 h2
    have e2 := psum_get (NS.map List.length) j (by simp; omega)
    have e3 := psum_get (NS.map List.sum) j (by simp; omega)
    have e4 : splits NS j + k - ((NS.map List.length).take j).sum = k := by
      rw [← splits_eq_take]; omega
    have e5 := psum_get r k (by omega)
    subst h3
    rw [take_flatten_at NS j r k h1 (by omega), List.sum_append, List.sum_flatten, List.map_take]
    simp only [e1, Option.bind_eq_bind, Option.bind_some, e2, e3, h1, e4, e5]

theorem idsFrom_shift (r : Nat) (ns : List Nat) : idsFrom r ns = (idsFrom 0 ns).map (fun x => x + r) := by
  have key : ∀ a, idsFrom (a + r) ns = (idsFrom a ns).map (fun x => x + r) := by
    intro a
    induction ns generalizing a with
    | nil => rfl
    | cons n ns ih =>
      rw [idsFrom, idsFrom, List.map_append, List.map_replicate, ← ih (a + 1)]
      congr 2; omega
  simpa using key 0

theorem idsFrom_flatten (NS : List (List Nat)) (j : Nat) (r : List Nat) (k : Nat)
    (h : NS[j]? = some r) (hk : k < r.sum) (v : Nat) (hv : (idsFrom 0 r)[k]? = some v) :
    (idsFrom 0 NS.flatten)[((NS.map List.sum).take j).sum + k]? =
      some (v + ((NS.map List.length).take j).sum) := by
  have hj := (List.getElem?_eq_some_iff.mp h).1
  have h1 : NS = NS.take j ++ r :: NS.drop (j + 1) := by
    conv_lhs => rw [← List.take_append_drop j NS, List.drop_eq_getElem_cons hj,
      (List.getElem?_eq_some_iff.mp h).2]
  have h2 : idsFrom 0 NS.flatten = idsFrom 0 (NS.take j).flatten ++
      (idsFrom ((NS.take j).flatten.length) r ++
        idsFrom ((NS.take j).flatten.length + r.length) (NS.drop (j + 1)).flatten) := by
    conv_lhs => rw [h1, List.flatten_append, List.flatten_cons, idsFrom_append, idsFrom_append,
      Nat.zero_add]
  have h3 : ((NS.map List.sum).take j).sum = (idsFrom 0 (NS.take j).flatten).length := by
    rw [idsFrom_length, List.sum_flatten, List.map_take]
  rw [h2, h3, List.getElem?_append_right (by omega), Nat.add_sub_cancel_left,
    List.getElem?_append_left (by rw [idsFrom_length]; exact hk), idsFrom_shift, List.getElem?_map, hv,
    Option.map_some, List.length_flatten, List.map_take]

theorem stackIds_layer (NS : List (List Nat)) (i : Nat) (hi : i < (NS.map List.sum).sum) :
    (do
        let j ← (idsFrom 0 (NS.map List.sum))[i]?
        let b ← (psum (NS.map List.sum))[j]?
        let o ← (psum (NS.map List.length))[j]?
        let ns ← NS[j]?
        let v ← (idsFrom 0 ns)[i - b]?
        some (v + o)) = (idsFrom 0 NS.flatten)[i]? := by
  have hl : (NS.map (idsFrom 0)).map List.length = NS.map List.sum := by
    rw [List.map_map]; exact List.map_congr_left (fun x _ => idsFrom_length 0 x)
  obtain ⟨j, r, k, h1, h2, h3⟩ := flatten_pos (NS.map (idsFrom 0)) i
    (by rw [List.length_flatten, hl]; exact hi)
  have e1 := comp_get _ j r k h1 h2
  rw [hl] at e1
  rw [splits_eq_take, hl] at h3 e1
  rw [List.getElem?_map] at h1
  obtain ⟨ns, hns, rfl⟩ := Option.map_eq_some_iff.mp h1
  have hj := (List.getElem?_eq_some_iff.mp hns).1
  have e2 := psum_get (NS.map List.sum) j (by simp; omega)
  have e3 := psum_get (NS.map List.length) j (by simp; omega)
  have e4 : (idsFrom 0 ns)[k]? = some (idsFrom 0 ns)[k] := List.getElem?_eq_getElem h2
  rw [idsFrom_length] at h2
  have e5 := idsFrom_flatten NS j ns k hns h2 _ e4
  subst h3
  rw [e5]
  simp only [e1, Option.bind_eq_bind, Option.bind_some, e2, e3, hns, Nat.add_sub_cancel_left, e4]

/-! ## The whole shape -/

theorem stackSplits_eq (n : Nat) (Ts : List (List (Nest α n))) (a : Nat) (h : a < n) :
    stackSplits (Ts.map (fullLayers n)) (a + 1) = some (psum (sizesAt n Ts.flatten a)) := by
  have o1 := offsetsRow_eq n Ts a (by omega) (by omega)
  have o2 := offsetsRow_eq n Ts (a + 1) (by omega) (by omega)
  have hS : Ts.map (fun T => totAt n T a) = (Ts.map (fun T => sizesAt n T a)).map List.length := by
    rw [List.map_map]; exact List.map_congr_left (fun T _ => (sizesAt_rows n T a h).symm)
  have hE : Ts.map (fun T => totAt n T (a + 1)) = (Ts.map (fun T => sizesAt n T a)).map List.sum := by
    rw [List.map_map]; rfl
  rw [hS] at o1
  rw [hE] at o2
  unfold stackSplits
  rw [o1, o2, sizesAt_flatten]
  generalize hNS : Ts.map (fun T => sizesAt n T a) = NS at *
  have hlast : (psum (NS.map List.length)).getLastD 0 = NS.flatten.length := by
    rw [psum_getLastD, List.length_flatten]
  simp only [Option.bind_eq_bind, Option.bind_some, composedIds_psum, hlast]
  apply mapM_some_of
  · simp
  intro i b hb
  have hi : i ≤ NS.flatten.length := by
    have := (List.getElem?_eq_some_iff.mp hb).1; simp at this ⊢; omega
  obtain rfl : i = b := by
    rw [List.getElem?_range (by omega)] at hb; exact Option.some.inj hb
  rw [← stackSplits_layer NS i hi, List.length_map, ← hNS, List.length_map]
  split
  · rfl
  · simp only [Option.bind_eq_bind]
    congr 1; funext j
    congr 1; funext b
    congr 1; funext o
    rw [List.getElem?_map, List.getElem?_map]
    cases Ts[j]? with
    | none => rfl
    | some T =>
      simp only [Option.map_some, Option.bind_some, Nat.add_sub_cancel, fullLayers_get n T a h]

theorem stackIds_eq (n : Nat) (Ts : List (List (Nest α n))) (a : Nat) (h : a < n) :
    stackIds (Ts.map (fullLayers n)) (a + 2) = some (idsFrom 0 (sizesAt n Ts.flatten a)) := by
  have o1 := offsetsRow_eq n Ts a (by omega) (by omega)
  have o2 := offsetsRow_eq n Ts (a + 1) (by omega) (by omega)
  have hS : Ts.map (fun T => totAt n T a) = (Ts.map (fun T => sizesAt n T a)).map List.length := by
    rw [List.map_map]; exact List.map_congr_left (fun T _ => (sizesAt_rows n T a h).symm)
  have hE : Ts.map (fun T => totAt n T (a + 1)) = (Ts.map (fun T => sizesAt n T a)).map List.sum := by
    rw [List.map_map]; rfl
  rw [hS] at o1
  rw [hE] at o2
  unfold stackIds
  rw [show a + 2 - 1 = a + 1 by omega, o1, show a + 2 = a + 1 + 1 by omega, o2, sizesAt_flatten]
  generalize hNS : Ts.map (fun T => sizesAt n T a) = NS at *
  simp only [Option.bind_eq_bind, Option.bind_some, composedIds_psum, psum_getLastD]
  apply mapM_some_of
  · simp [List.sum_flatten]
  intro i b hb
  have hi : i < (NS.map List.sum).sum := by
    have := (List.getElem?_eq_some_iff.mp hb).1; simpa using this
  obtain rfl : i = b := by
    rw [List.getElem?_range (by omega)] at hb; exact Option.some.inj hb
  rw [← stackIds_layer NS i hi, ← hNS]
  simp only [Option.bind_eq_bind]
  congr 1; funext j
  congr 1; funext b
  congr 1; funext o
  rw [List.getElem?_map, List.getElem?_map]
  cases Ts[j]? with
  | none => rfl
  | some T =>
    simp only [Option.map_some, Option.bind_some, show a + 1 + 1 - 2 = a by omega,
      fullLayers_get n T a h]

theorem totAt_values (n : Nat) (T : List (Nest α n)) : totAt n T n = (valuesOf n T).length := by
  induction n with
  | zero => rfl
  | succ n ih =>
    have h1 : valuesOf (n + 1) T = valuesOf n T.flatten := rfl
    rw [h1, ← ih T.flatten]
    cases n with
    | zero => simp [totAt, sizesAt, levelSizes, List.length_flatten]
    | succ n => rfl

theorem stackMergeMap_eq (n : Nat) (Ts : List (List (Nest α n))) (hn : 0 < n) :
    ∃ mm, stackMergeMap (Ts.map (fullLayers n)) (n + 1) = some mm ∧
      mm.length = (Ts.map (valuesOf n)).flatten.length ∧
      ∀ j T k, Ts[j]? = some T → k < (valuesOf n T).length →
        mm[splits (Ts.map (valuesOf n)) j + k]? = some (j + Ts.length * k) := by
  have o1 := offsetsRow_eq n Ts n hn (Nat.le_refl _)
  have hE : Ts.map (fun T => totAt n T n) = (Ts.map (valuesOf n)).map List.length := by
    rw [List.map_map]; exact List.map_congr_left (fun T _ => totAt_values n T)
  rw [hE] at o1
  unfold stackMergeMap
  rw [o1]
  simp only [Option.bind_eq_bind, Option.bind_some, composedIds_psum, psum_getLastD,
    ← List.length_flatten]
  set L := Ts.map (valuesOf n) with hL
  have hstep : ∀ j r k, L[j]? = some r → k < r.length →
      ((idsFrom 0 (L.map List.length))[splits L j + k]?.bind fun j' =>
        (psum (L.map List.length))[j']?.bind fun b =>
          some (j' + (Ts.map (fullLayers n)).length * (splits L j + k - b))) =
        some (j + Ts.length * k) := by
    intro j r k h1 h2
    have hj := (List.getElem?_eq_some_iff.mp h1).1
    rw [comp_get L j r k h1 h2, Option.bind_some, psum_get _ _ (by simp; omega), Option.bind_some,
      ← splits_eq_take, Nat.add_sub_cancel_left, List.length_map]
  obtain ⟨mm, hmm⟩ := mapM_exists (l := List.range L.flatten.length) (f := fun i =>
      (idsFrom 0 (L.map List.length))[i]?.bind fun j' =>
        (psum (L.map List.length))[j']?.bind fun b =>
          some (j' + (Ts.map (fullLayers n)).length * (i - b))) (by
    intro i hi
    obtain ⟨j, r, k, h1, h2, rfl⟩ := flatten_pos L i (by simpa using hi)
    exact ⟨_, hstep j r k h1 h2⟩)
  obtain ⟨hlen, hget⟩ := mapM_get hmm
  refine ⟨mm, hmm, by simpa using hlen, ?_⟩
  intro j T k hT hk
  have h1 : L[j]? = some (valuesOf n T) := by rw [hL, List.getElem?_map, hT]; rfl
  have hlt : splits L j + k < L.flatten.length := by
    have := splits_le L (j + 1)
    rw [splits_succ L j _ h1] at this
    omega
  rw [hget _ (splits L j + k) (List.getElem?_range hlt)]
  exact hstep j _ k h1 hk

theorem valuesOf_flatten (n : Nat) (Ts : List (List (Nest α n))) :
    valuesOf n Ts.flatten = (Ts.map (valuesOf n)).flatten := by
  induction n with
  | zero =>
    show Ts.flatten = (Ts.map (fun x => x)).flatten
    rw [List.map_id']
  | succ n ih =>
    have h1 : ∀ T : List (Nest α (n + 1)), valuesOf (n + 1) T = valuesOf n T.flatten := fun T => rfl
    rw [h1, List.flatten_flatten, ih, List.map_map]
    rfl

/-- The merge map of a concatenation: entry `i` is `j + num_srcs * k` where the `i`-th value of the
result is the `k`-th value of source `j`. -/
def IsMergeMap (mm : List Nat) (vals : List (List α)) : Prop :=
  mm.length = vals.flatten.length ∧
    ∀ (i e : Nat), mm[i]? = some e → ∃ v, vals[e % vals.length]? = some v ∧ e / vals.length < v.length ∧
      vals.flatten[i]? = v[e / vals.length]?

/-- `Stack` on axis 0 gives the list of its sources, and the merge map says where each value comes
from. -/
theorem stack_axis0 (n : Nat) (Ts : List (List (Nest α (n + 1)))) (h : Ts ≠ []) :
    ∃ mm, stackAxis0 (Ts.map (fullLayers (n + 1))) =
        some (fullLayers (n + 2) (Ts : List (Nest α (n + 2))), mm) ∧
      IsMergeMap mm (Ts.map (valuesOf (n + 1))) := by
  have hmap : ∀ mm : List Nat, mm.length = (Ts.map (valuesOf (n + 1))).flatten.length →
      (∀ j T k, Ts[j]? = some T → k < (valuesOf (n + 1) T).length →
        mm[splits (Ts.map (valuesOf (n + 1))) j + k]? = some (j + Ts.length * k)) →
      IsMergeMap mm (Ts.map (valuesOf (n + 1))) := by
    intro mm hl hget
    refine ⟨hl, ?_⟩
    intro i e he
    have hi := (List.getElem?_eq_some_iff.mp he).1
    obtain ⟨j, r, k, h1, h2, rfl⟩ := flatten_pos (Ts.map (valuesOf (n + 1))) i (by omega)
    have hj := (List.getElem?_eq_some_iff.mp h1).1
    rw [List.length_map] at hj
    have h1' := h1
    rw [List.getElem?_map] at h1
    obtain ⟨T, hT, rfl⟩ := Option.map_eq_some_iff.mp h1
    rw [hget j T k hT h2] at he
    obtain rfl := Option.some.inj he
    have e1 : (j + Ts.length * k) % Ts.length = j := by
      rw [Nat.add_mul_mod_self_left, Nat.mod_eq_of_lt hj]
    have e2 : (j + Ts.length * k) / Ts.length = k := by
      rw [Nat.add_mul_div_left _ _ (by omega), Nat.div_eq_of_lt hj, Nat.zero_add]
    rw [List.length_map, e1, e2]
    exact ⟨_, h1', h2, flatten_get _ _ _ h1' _ h2⟩
  match Ts, h with
  | [T], _ =>
    refine ⟨List.range (totAt (n + 1) T (n + 1)), ?_, hmap _ ?_ ?_⟩
    · have f1 : fullLayers (n + 2) ([T] : List (Nest α (n + 2))) = _ :=
        fullLayers_succ (n + 1) (α := α) [T]
      rw [f1, List.flatten_singleton]
      simp only [List.map_cons, List.map_nil, stackAxis0, fullLayers_length,
        totSize_fullLayers (n + 1) T 0 (by omega) (by omega),
        totSize_fullLayers (n + 1) T (n + 1) (by omega) (by omega),
        Option.bind_eq_bind, Option.bind_some]
      simp [totAt, psum, psumFrom, idsFrom]
    · simp [totAt_values]
    · intro j T' k hT hk
      cases j with
      | succ j => simp at hT
      | zero =>
        obtain rfl : T = T' := by simpa using hT
        simp only [splits_zero, List.length_singleton]
        rw [List.getElem?_range (by rw [totAt_values]; omega)]
        congr 1; omega
  | T :: T2 :: Ts', _ =>
    obtain ⟨mm, h1, h2, h3⟩ := stackMergeMap_eq (n + 1) (T :: T2 :: Ts') (by omega)
    refine ⟨mm, ?_, hmap mm h2 h3⟩
    have f1 : fullLayers (n + 2) (T :: T2 :: Ts' : List (Nest α (n + 2))) = _ :=
      fullLayers_succ (n + 1) (α := α) (T :: T2 :: Ts')
    have o1 := offsetsRow_eq (n + 1) (T :: T2 :: Ts') 0 (by omega) (by omega)
    have hl : (List.range (fullLayers (n + 1) T).length).mapM (fun a => do
        let sp ← stackSplits ((T :: T2 :: Ts').map (fullLayers (n + 1))) (a + 1)
        let ids ← stackIds ((T :: T2 :: Ts').map (fullLayers (n + 1))) (a + 2)
        some (sp, ids)) = some (fullLayers (n + 1) (T :: T2 :: Ts').flatten) := by
      rw [fullLayers_length]
      apply mapM_some_of
      · simp
      intro a b hb
      have ha : a < n + 1 := by
        have := (List.getElem?_eq_some_iff.mp hb).1; simpa using this
      obtain rfl : a = b := by
        rw [List.getElem?_range ha] at hb; exact Option.some.inj hb
      rw [stackSplits_eq (n + 1) _ a ha, stackIds_eq (n + 1) _ a ha,
        fullLayers_get (n + 1) _ a ha]
      rfl
    rw [f1]
    simp only [List.map_cons] at o1 h1 hl ⊢
    rw [stackAxis0]
    · rw [if_pos (by simp), o1, hl, fullLayers_length, h1]
      simp only [Option.bind_eq_bind, Option.bind_some]
      have := composedIds_psum (((T :: T2 :: Ts').map (fun T => totAt (n + 1) T 0)))
      simp only [List.map_cons] at this
      rw [this]
      rfl
    · simp

/-- `Cat` on axis 0 appends its sources. -/
theorem cat_axis0 (n : Nat) (Ts : List (List (Nest α (n + 1)))) (h : Ts ≠ []) :
    ∃ mm, catAxis0 (Ts.map (fullLayers (n + 1))) = some (fullLayers (n + 1) Ts.flatten, mm) ∧
      IsMergeMap mm (Ts.map (valuesOf (n + 1))) ∧
      valuesOf (n + 1) Ts.flatten = (Ts.map (valuesOf (n + 1))).flatten := by
  obtain ⟨mm, h1, h2⟩ := stack_axis0 n Ts h
  refine ⟨mm, ?_, h2, valuesOf_flatten (n + 1) Ts⟩
  have f1 : fullLayers (n + 2) (Ts : List (Nest α (n + 2))) = _ := fullLayers_succ (n + 1) (α := α) Ts
  unfold catAxis0
  rw [h1, f1]
  rfl

/-! Two sources with three axes, one of them with an empty row. -/

def stackExample : List (List (Nest Nat 2)) :=
  ([[[[1, 2], []], []], [[[3]]]] : List (List (List (List Nat))))

example : catAxis0 (stackExample.map (fullLayers 2)) =
    some ([([0, 2, 2, 3], [0, 0, 2]), ([0, 2, 2, 3], [0, 0, 2])], [0, 2, 1]) := by decide

end Verif.Ragged
