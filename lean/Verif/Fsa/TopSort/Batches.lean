import Verif.Fsa.TopSort.Kernel
import Verif.Fsa.Sort.Props
import Verif.Fsa.Connect.Restrict
import Verif.Fsa.Connect.Bfs

/-!
The batches of `TopSort` as sets of states, and the states by FSA.
-/

namespace Verif.Fsa.Top
open Verif.Ragged Verif.Util
variable {W X : Type}

/-! ## A list of states by FSA -/

/-- The states of each FSA. -/
def rowsBy (key : Nat → Nat) (n : Nat) (B : List Nat) : List (List Nat) :=
  (List.range n).map (fun r => B.filter (fun v => key v == r))

/-- The batch with the states `B`. -/
def batchOf (key : Nat → Nat) (n : Nat) (B : List Nat) : Batch :=
  ⟨psum ((rowsBy key n B).map List.length), B.map key, B⟩

theorem filter_split (key : X → Nat) (l : List X) (n : Nat) (h : l.Pairwise (fun a b => key a ≤ key b)) :
    l.filter (fun a => key a < n) ++ l.filter (fun a => key a == n) =
      l.filter (fun a => key a < n + 1) := by
  induction l with
  | nil => rfl
  | cons a l ih =>
    rw [List.pairwise_cons] at h
    have ih := ih h.2
    by_cases h1 : key a < n
    · have h2 : ¬ key a = n := by omega
      have h3 : key a < n + 1 := by omega
      simp only [List.filter_cons, h1, h2, h3, decide_true, if_true, beq_iff_eq, if_false,
        List.cons_append, ih]
    · have hnil : l.filter (fun b => decide (key b < n)) = [] := by
        rw [List.filter_eq_nil_iff]
        intro b hb
        have := h.1 b hb
        simp; omega
      rw [hnil, List.nil_append] at ih
      by_cases h2 : key a = n
      · have h3 : key a < n + 1 := by omega
        simp only [List.filter_cons, h1, h2, decide_true, if_true, beq_iff_eq,
          hnil, List.nil_append, ih, Nat.lt_irrefl, decide_false, Bool.false_eq_true, if_false,
          show n < n + 1 from Nat.lt_succ_self n]
      · have h3 : ¬ key a < n + 1 := by omega
        simp only [List.filter_cons, h1, h2, h3, decide_false, Bool.false_eq_true, if_false,
          beq_iff_eq, hnil, List.nil_append, ih]

theorem flatten_filter_key (key : X → Nat) (l : List X) (n : Nat)
    (h : l.Pairwise (fun a b => key a ≤ key b)) :
    ((List.range n).map (fun s => l.filter (fun a => key a == s))).flatten =
      l.filter (fun a => key a < n) := by
  induction n with
  | zero => simp
  | succ n ih =>
    rw [List.range_succ, List.map_append, List.flatten_append, ih]
    simp only [List.map_cons, List.map_nil, List.flatten_cons, List.flatten_nil, List.append_nil]
    exact filter_split key l n h

theorem rowsBy_flatten (key : Nat → Nat) (n : Nat) (B : List Nat)
    (hs : B.Pairwise (fun a b => key a ≤ key b)) (hn : ∀ v ∈ B, key v < n) :
    (rowsBy key n B).flatten = B := by
  rw [rowsBy, flatten_filter_key key B n hs, List.filter_eq_self]
  intro v hv
  simpa using hn v hv

theorem rowsBy_ids (key : Nat → Nat) (n : Nat) (B : List Nat)
    (hs : B.Pairwise (fun a b => key a ≤ key b)) (hn : ∀ v ∈ B, key v < n) :
    B.map key = idsFrom 0 ((rowsBy key n B).map List.length) := by
  have h1 : (B.map key).Pairwise (· ≤ ·) := List.pairwise_map.mpr hs
  have h2 : ∀ x ∈ B.map key, x < n := by
    intro x hx
    obtain ⟨v, hv, rfl⟩ := List.mem_map.mp hx
    exact hn v hv
  rw [ids_eq_idsFrom _ n h1 h2]
  congr 1
  rw [rowsBy, List.map_map]
  apply List.map_congr_left
  intro r _
  rw [List.count, List.countP_map, Function.comp_apply, List.countP_eq_length_filter]
  congr 1

theorem mkBatch_eq (key : Nat → Nat) (n : Nat) (B : List Nat)
    (hs : B.Pairwise (fun a b => key a ≤ key b)) (hn : ∀ v ∈ B, key v < n) :
    mkBatch n (B.map key) B = some (batchOf key n B) := by
  have h := rowIdsToRowSplits_idsFrom ((rowsBy key n B).map List.length)
  rw [← rowsBy_ids key n B hs hn, List.length_map, show (rowsBy key n B).length = n from by
    simp [rowsBy]] at h
  unfold mkBatch
  simp only [h, Option.bind_eq_bind, Option.bind_some]
  rfl

theorem mergeSort_eq_of_perm (l B : List Nat) (hp : l.Perm B) (hB : B.Pairwise (· < ·)) :
    l.mergeSort (fun a b => !natLt b a) = B := by
  have hle : (fun a b => !natLt b a) = fun a b : Nat => decide (a ≤ b) := by
    funext a b
    unfold natLt
    by_cases h : b < a
    · simp [h]
    · simp [h]; omega
  rw [hle]
  apply List.Perm.eq_of_pairwise (le := fun a b => a ≤ b) (fun a b _ _ h1 h2 => Nat.le_antisymm h1 h2)
  · have := List.pairwise_mergeSort (le := fun a b : Nat => decide (a ≤ b))
      (fun a b c h1 h2 => by simp at *; omega) (fun a b => by simp; omega) l
    exact this.imp (fun h => by simpa using h)
  · exact hB.imp (fun h => Nat.le_of_lt h)
  · exact (List.mergeSort_perm l _).trans hp

/-- A batch whose rows are sorted holds the states in increasing order. -/
theorem sortedBatch_eq (key : Nat → Nat) (n : Nat) (l B : List Nat) (hmono : B.Pairwise (fun a b => key a ≤ key b))
    (hs : l.Pairwise (fun a b => key a ≤ key b)) (hp : l.Perm B) (hB : B.Pairwise (· < ·))
    (hn : ∀ v ∈ B, key v < n) :
    (mkBatch n (l.map key) l).bind (fun b =>
      (sortSublists natLt b.splits b.vals).bind (fun s => some (⟨b.splits, b.ids, s.1⟩ : Batch))) =
    some (batchOf key n B) := by
  have hn' : ∀ v ∈ l, key v < n := fun v hv => hn v (hp.mem_iff.mp hv)
  rw [mkBatch_eq key n l hs hn', Option.bind_some]
  have h1 := sortSublists_eq natLt (rowsBy key n l)
  rw [rowsBy_flatten key n l hs hn'] at h1
  have hrows : (rowsBy key n l).map (fun row => row.mergeSort (fun a b => !natLt b a)) = rowsBy key n B := by
    unfold rowsBy
    rw [List.map_map]
    apply List.map_congr_left
    intro r _
    exact mergeSort_eq_of_perm _ _ (hp.filter _) (hB.filter _)
  have hlen : (rowsBy key n l).map List.length = (rowsBy key n B).map List.length := by
    unfold rowsBy
    rw [List.map_map, List.map_map]
    apply List.map_congr_left
    intro r _
    exact (hp.filter _).length_eq
  have hids : l.map key = B.map key := by
    rw [rowsBy_ids key n l hs hn', rowsBy_ids key n B hmono hn, hlen]
  rw [hrows, rowsBy_flatten key n B hmono hn] at h1
  show (sortSublists natLt (psum ((rowsBy key n l).map List.length)) l).bind _ = _
  rw [h1, Option.bind_some]
  unfold batchOf
  rw [hlen, hids]

/-- Row `r` of a batch. -/
theorem batchOf_row (key : Nat → Nat) (n : Nat) (B : List Nat)
    (hs : B.Pairwise (fun a b => key a ≤ key b)) (hn : ∀ v ∈ B, key v < n) (r : Nat) (hr : r < n) :
    (batchOf key n B).row r = some (B.filter (fun v => key v == r)) := by
  have hlen : (rowsBy key n B).length = n := by simp [rowsBy]
  have hget : (rowsBy key n B)[r]? = some (B.filter (fun v => key v == r)) := by
    rw [rowsBy, List.getElem?_map, List.getElem?_range hr]; rfl
  have hmap : ((rowsBy key n B).map List.length)[r]? = some (B.filter (fun v => key v == r)).length := by
    rw [List.getElem?_map, hget]; rfl
  have h1 := psum_get ((rowsBy key n B).map List.length) r (by rw [List.length_map]; omega)
  have h2 := psum_get ((rowsBy key n B).map List.length) (r + 1) (by rw [List.length_map]; omega)
  have h3 := take_succ_sum _ r _ hmap
  unfold Batch.row batchOf
  simp only [h1, h2, h3, Option.bind_eq_bind, Option.bind_some, Nat.add_sub_cancel_left]
  congr 1
  have hfl := rowsBy_flatten key n B hs hn
  rw [← List.map_take, ← List.length_flatten]
  have hsplit : B = ((rowsBy key n B).take r).flatten ++ ((B.filter (fun v => key v == r)) ++
      ((rowsBy key n B).drop (r + 1)).flatten) := by
    conv_lhs => rw [← hfl, ← List.take_append_drop r (rowsBy key n B)]
    rw [List.flatten_append, List.drop_eq_getElem_cons (by omega), List.flatten_cons]
    have := (List.getElem?_eq_some_iff.mp hget).2
    rw [this]
  generalize hP : ((rowsBy key n B).take r).flatten = P at hsplit ⊢
  generalize B.filter (fun v => key v == r) = Q at hsplit ⊢
  generalize ((rowsBy key n B).drop (r + 1)).flatten = R at hsplit
  clear hfl hget hmap h1 h2 h3 hs hn
  subst hsplit
  rw [List.drop_left, List.take_left]

/-! ## Keys of states -/

/-- The FSA of a state (`idx0`). -/
def keyOf (T : List (List (List X))) (v : Nat) : Nat := (idsFrom 0 (T.map List.length)).getD v 0

theorem keyOf_off (T : List (List (List X))) (r s : Nat) (f : List (List X)) (hf : T[r]? = some f)
    (hs : s < f.length) : keyOf T (off T r + s) = r := by
  have := ids_at (T.map List.length) r f.length s (by rw [List.getElem?_map, hf]; rfl) hs
  unfold keyOf
  rw [List.getD_eq_getElem?_getD, show off T r = ((T.map List.length).take r).sum from rfl, this]
  rfl

theorem keyOf_mono (T : List (List (List X))) (v w : Nat) (h : v ≤ w) (hw : w < T.flatten.length) :
    keyOf T v ≤ keyOf T w := by
  have hl : (idsFrom 0 (T.map List.length)).length = T.flatten.length := by
    simp
  rcases Nat.eq_or_lt_of_le h with rfl | h
  · exact Nat.le_refl _
  · have := List.pairwise_iff_getElem.mp (idsFrom_pairwise 0 (T.map List.length)) v w (by omega) (by omega) h
    unfold keyOf
    rw [List.getD_eq_getElem?_getD, List.getD_eq_getElem?_getD, List.getElem?_eq_getElem (by omega),
      List.getElem?_eq_getElem (by omega)]
    exact this

theorem keyOf_lt (T : List (List (List X))) (v : Nat) (hv : v < T.flatten.length) : keyOf T v < T.length := by
  obtain ⟨r, f, s, hf, hs, rfl⟩ := state_pos T v hv
  rw [keyOf_off T r s f hf hs]
  exact (List.getElem?_eq_some_iff.mp hf).1

theorem id1_get (T : List (List (List (Arc W)))) (v : Nat) (hv : v < T.flatten.length) :
    (flat T).id1[v]? = some (keyOf T v) := by
  obtain ⟨r, f, s, hf, hs, rfl⟩ := state_pos T v hv
  rw [keyOf_off T r s f hf hs, flat_id1 T r s f hf hs]

/-- A set of states in increasing order. -/
structure Asc (T : List (List (List X))) (B : List Nat) : Prop where
  lt : B.Pairwise (· < ·)
  mem : ∀ v ∈ B, v < T.flatten.length

theorem Asc.keys {T : List (List (List X))} {B : List Nat} (h : Asc T B) :
    B.Pairwise (fun a b => keyOf T a ≤ keyOf T b) := by
  apply h.lt.imp_of_mem
  intro a b _ hb hab
  exact keyOf_mono T a b (Nat.le_of_lt hab) (h.mem b hb)

theorem Asc.key_lt {T : List (List (List X))} {B : List Nat} (h : Asc T B) :
    ∀ v ∈ B, keyOf T v < T.length := fun v hv => keyOf_lt T v (h.mem v hv)

theorem Asc.nodup {T : List (List (List X))} {B : List Nat} (h : Asc T B) : B.Nodup :=
  h.lt.imp (fun h => Nat.ne_of_lt h)

theorem asc_filter (T : List (List (List X))) (p : Nat → Bool) : Asc T ((List.range T.flatten.length).filter p) :=
  ⟨List.pairwise_lt_range.filter _, fun v hv => List.mem_range.mp (List.mem_of_mem_filter hv)⟩

end Verif.Fsa.Top
