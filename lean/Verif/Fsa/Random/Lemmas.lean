import Verif.Fsa.Random.Count
import Verif.Fsa.Random.Storage
import Verif.Fsa.Scores.Props

/-!
# Lemmas for `random_paths`
-/

namespace Verif.Fsa.Rp
open Verif.Ragged Verif.Util Verif.Fsa.Bat Verif.Fsa.Sco Verif.Fsa.Top
variable {W K : Type}

theorem filter_rows_from (f : List (List (Arc W))) : ∀ (o s : Nat),
    (∀ (i : Nat) (row : List (Arc W)), f[i]? = some row → ∀ a ∈ row, a.src = o + i) →
    f.flatten.filter (fun a => decide (a.src = o + s)) = f.getD s [] := by
  induction f with
  | nil => intro o s _; simp
  | cons row f ih =>
    intro o s h
    have h0 := h 0 row rfl
    have ih' := fun s => ih (o + 1) s (fun i row' hi a ha => by
      have := h (i + 1) row' (by simpa using hi) a ha
      omega)
    rw [List.flatten_cons, List.filter_append]
    cases s with
    | zero =>
      have e1 : row.filter (fun a => decide (a.src = o + 0)) = row := by
        rw [List.filter_eq_self]
        intro a ha
        simpa using h0 a ha
      have e2 : f.flatten.filter (fun a => decide (a.src = o + 0)) = [] := by
        rw [List.filter_eq_nil_iff]
        intro a ha
        obtain ⟨row', hr, har⟩ := List.mem_flatten.mp ha
        obtain ⟨i, hi⟩ := List.getElem?_of_mem hr
        have := h (i + 1) row' (by simpa using hi) a har
        simp; omega
      rw [e1, e2]; simp
    | succ s =>
      have e1 : row.filter (fun a => decide (a.src = o + (s + 1))) = [] := by
        rw [List.filter_eq_nil_iff]
        intro a ha
        have := h0 a ha
        simp; omega
      have e2 := ih' s
      rw [e1, List.nil_append, show o + (s + 1) = o + 1 + s by omega, e2]
      rfl

theorem filter_rows (f : List (List (Arc W))) (hf : RowsOk f) (s : Nat) :
    f.flatten.filter (fun a => decide (a.src = s)) = f.getD s [] := by
  have := filter_rows_from f 0 s (fun i row hi a ha => by rw [Nat.zero_add]; exact (hf i row hi a ha).1)
  rwa [Nat.zero_add] at this

/-- A path has fewer arcs than its FSA has batches of states. -/
theorem path_lt_batches {T : List (List (List (Arc W)))} {B : List (List (List Nat))} (hB : BatchSchedule T B)
    (hT : VecOk T) (r : Nat) (f : List (List (Arc W))) (bs : List (List Nat)) (hf : T[r]? = some f) (hb : B[r]? = some bs)
    (is : List Nat) : ∀ (s t k : Nat) (b : List Nat), IPath f.flatten s is t → bs[k]? = some b → off T r + s ∈ b →
      k + is.length < bs.length := by
  induction is with
  | nil =>
    intro s t k b _ hk _
    exact (List.getElem?_eq_some_iff.mp hk).1
  | cons j js ih =>
    intro s t k b hp hk hm
    obtain ⟨a, h1, h2, h3⟩ := (ipath_cons _ _ _ _ _).mp hp
    subst h2
    have hlt := (vec_arc_lt hT (List.mem_of_getElem? hf) a (List.mem_of_getElem? h1)).2
    have hmem : off T r + a.dst ∈ bs.flatten := by
      rw [hB.part r f bs hf hb, List.mem_range'_1]; omega
    obtain ⟨b', hb', hm'⟩ := List.mem_flatten.mp hmem
    obtain ⟨k', hk'⟩ := List.getElem?_of_mem hb'
    have h4 := hB.arcs r f bs hf hb a (List.mem_of_getElem? h1) k k' b b' hk hk' hm hm'
    have h5 := ih _ _ k' b' h3 hk' hm'
    rw [List.length_cons]; omega

variable [Field K] [LinearOrder K] [IsStrictOrderedRing K]

/-- The rows of a flat array. -/
def cutRows {X Y : Type} [Zero Y] (T : List (List (List X))) (post : List Y) : List (List Y) :=
  (List.range T.flatten.length).map (fun g => (List.range' (apos T g) (T.flatten.getD g []).length).map (fun i => post.getD i 0))

theorem cutRows_get {X Y : Type} [Zero Y] (T : List (List (List X))) (post : List Y) (g : Nat) (row : List X)
    (h : T.flatten[g]? = some row) :
    (cutRows T post)[g]? = some ((List.range' (apos T g) row.length).map (fun i => post.getD i 0)) := by
  have hg := (List.getElem?_eq_some_iff.mp h).1
  rw [cutRows, List.getElem?_map, List.getElem?_range hg, Option.map_some, List.getD_eq_getElem?_getD, h]
  rfl

theorem cutRows_lengths {X Y : Type} [Zero Y] (T : List (List (List X))) (post : List Y) :
    (cutRows T post).map List.length = T.flatten.map List.length := by
  apply List.ext_getElem?
  intro g
  rw [List.getElem?_map, List.getElem?_map]
  rcases Nat.lt_or_ge g T.flatten.length with h | h
  · rw [cutRows_get T post g _ (List.getElem?_eq_getElem h), List.getElem?_eq_getElem h]
    simp
  · rw [List.getElem?_eq_none h, List.getElem?_eq_none (by simpa [cutRows] using h)]
    rfl

theorem cutRows_splits {X Y : Type} [Zero Y] (T : List (List (List X))) (post : List Y) (g : Nat) :
    splits (cutRows T post) g = apos T g := by
  rw [splits, List.map_take, cutRows_lengths]; rfl

theorem cutRows_flatten {X Y : Type} [Zero Y] (T : List (List (List X))) (post : List Y)
    (h : post.length = T.flatten.flatten.length) : (cutRows T post).flatten = post := by
  have hl : (cutRows T post).flatten.length = T.flatten.flatten.length := by
    rw [List.length_flatten, cutRows_lengths, ← List.length_flatten]
  apply List.ext_getElem?
  intro i
  rcases Nat.lt_or_ge i post.length with hi | hi
  · obtain ⟨g, w, k, h1, h2, h3⟩ := flatten_pos (cutRows T post) i (by omega)
    have hg : g < T.flatten.length := by
      have := (List.getElem?_eq_some_iff.mp h1).1
      simpa [cutRows] using this
    rw [h3, flatten_get _ g w h1 k h2]
    rw [cutRows_get T post g _ (List.getElem?_eq_getElem hg)] at h1
    obtain rfl := Option.some.inj h1
    simp only [List.length_map, List.length_range'] at h2
    rw [List.getElem?_map, List.getElem?_range' h2, Option.map_some, cutRows_splits, List.getD_eq_getElem?_getD, Nat.one_mul,
      List.getElem?_eq_getElem (by rw [cutRows_splits] at h3; omega)]
    rfl
  · rw [List.getElem?_eq_none hi, List.getElem?_eq_none (by omega)]

end Verif.Fsa.Rp
