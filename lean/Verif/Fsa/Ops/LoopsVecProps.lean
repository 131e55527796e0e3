import Verif.Fsa.Ops.LoopsVecModel
import Verif.Fsa.Ops.SelfLoopsProps
import Verif.Fsa.TopSort.Renumber
import Verif.Fsa.Compose.Vec

/-!
# C30 for vectors of FSAs
-/

namespace Verif.Fsa.Lpv
open Verif.Ragged Verif.Util Verif.Fsa.Top
variable {W : Type}

/-! ## Specification -/

/-- The FSA with a loop at the front of every state but the last one. -/
def withLoops [Zero W] (f : List (List (Arc W))) : List (List (Arc W)) :=
  f.mapIdx (fun s row => if s + 1 < f.length then ⟨s, s, 0, 0⟩ :: row else row)

/-- The arc map: -1 for a loop, and the number of the arc in the vector for the others. -/
def mapRows (T : List (List (List (Arc W)))) : List (List (List Int)) :=
  T.mapIdx (fun r f => f.mapIdx (fun s row =>
    (if s + 1 < f.length then [-1] else []) ++
      (List.range row.length).map (fun k => ((apos T (off T r + s) + k : Nat) : Int))))

/-- No arc leaves the last state. -/
def LastEmpty (f : List (List (Arc W))) : Prop := ∀ row, f[f.length - 1]? = some row → row = []

/-! ## Positions -/

def cnt {X : Type} (T : List (List X)) (r : Nat) : Nat := ((T.map (fun f => if 0 < f.length then 1 else 0)).take r).sum

theorem withLoops_length [Zero W] (f : List (List (Arc W))) : (withLoops f).length = f.length := by simp [withLoops]

theorem withLoops_get [Zero W] (f : List (List (Arc W))) (s : Nat) (row : List (Arc W)) (h : f[s]? = some row) :
    (withLoops f)[s]? = some (if s + 1 < f.length then ⟨s, s, 0, 0⟩ :: row else row) := by
  rw [withLoops, List.getElem?_mapIdx, h]
  rfl

theorem off_loops [Zero W] (T : List (List (List (Arc W)))) (r : Nat) : off (T.map withLoops) r = off T r := by
  rw [off, off, List.map_map]
  congr 2
  apply List.map_congr_left
  intro f _
  exact withLoops_length f

theorem lpos_loops [Zero W] (f : List (List (Arc W))) (s : Nat) (hs : s < f.length) :
    lpos (withLoops f) s = lpos f s + s := by
  induction s with
  | zero => simp [lpos]
  | succ s ih =>
    have hr := List.getElem?_eq_getElem (show s < f.length by omega)
    have hw := withLoops_get f s _ hr
    rw [if_pos hs] at hw
    have e1 : lpos f (s + 1) = lpos f s + f[s].length := take_succ_sum _ _ _ (by rw [List.getElem?_map, hr]; rfl)
    have e2 : lpos (withLoops f) (s + 1) = lpos (withLoops f) s + (f[s].length + 1) :=
      take_succ_sum _ _ _ (by rw [List.getElem?_map, hw]; rfl)
    rw [e1, e2, ih (by omega)]
    omega

theorem loops_total [Zero W] (f : List (List (Arc W))) :
    (withLoops f).flatten.length + (if 0 < f.length then 1 else 0) = f.flatten.length + f.length := by
  have h : ∀ f : List (List (Arc W)), f.flatten.length = lpos f f.length := by
    intro f
    rw [lpos, List.take_of_length_le (by simp), List.length_flatten]
  by_cases h0 : 0 < f.length
  · rw [if_pos h0, h, h, withLoops_length]
    obtain ⟨n, hn⟩ : ∃ n, f.length = n + 1 := ⟨f.length - 1, by omega⟩
    have hr := List.getElem?_eq_getElem (show n < f.length by omega)
    have hw := withLoops_get f n _ hr
    rw [if_neg (by omega)] at hw
    have e1 : lpos f (n + 1) = lpos f n + f[n].length := take_succ_sum _ _ _ (by rw [List.getElem?_map, hr]; rfl)
    have e2 : lpos (withLoops f) (n + 1) = lpos (withLoops f) n + f[n].length :=
      take_succ_sum _ _ _ (by rw [List.getElem?_map, hw]; rfl)
    rw [hn, e1, e2, lpos_loops f n (by omega)]
    omega
  · have : f = [] := List.eq_nil_of_length_eq_zero (by omega)
    subst this
    rfl

theorem base_loops [Zero W] (T : List (List (List (Arc W)))) (r : Nat) :
    (((T.map withLoops).map (fun f => f.flatten.length)).take r).sum + cnt T r =
      ((T.map (fun f => f.flatten.length)).take r).sum + off T r := by
  induction T generalizing r with
  | nil => simp [cnt, off]
  | cons f T ih =>
    cases r with
    | zero => simp [cnt, off]
    | succ r =>
      have := ih r
      have h2 := loops_total f
      simp only [cnt, off, List.map_cons, List.take_succ_cons, List.sum_cons] at this ⊢
      omega

theorem cnt_le {X : Type} (T : List (List X)) (r : Nat) : cnt T r ≤ ((T.map List.length).take r).sum := by
  induction T generalizing r with
  | nil => simp [cnt]
  | cons f T ih =>
    cases r with
    | zero => simp [cnt]
    | succ r =>
      have := ih r
      simp only [cnt, List.map_cons, List.take_succ_cons, List.sum_cons] at this ⊢
      split <;> omega

/-- Where the arcs of a state go. -/
theorem apos_loops [Zero W] (T : List (List (List (Arc W)))) (r s : Nat) (f : List (List (Arc W))) (hf : T[r]? = some f)
    (hs : s < f.length) :
    apos (T.map withLoops) (off T r + s) = apos T (off T r + s) + (off T r + s) - cnt T r := by
  have hw : (T.map withLoops)[r]? = some (withLoops f) := by rw [List.getElem?_map, hf]; rfl
  have h1 := apos_local (T.map withLoops) r s _ hw (by rw [withLoops_length]; omega)
  rw [off_loops] at h1
  have h2 := apos_local T r s f hf (by omega)
  have h3 := base_loops T r
  have h4 := lpos_loops f s hs
  omega

theorem loops_arcs [Zero W] (T : List (List (List (Arc W)))) :
    (T.map withLoops).flatten.flatten.length + cnt T T.length = T.flatten.flatten.length + T.flatten.length := by
  have := base_loops T T.length
  rw [List.take_of_length_le (by simp), List.take_of_length_le (by simp)] at this
  have e : ∀ T : List (List (List (Arc W))), T.flatten.flatten.length = (T.map (fun f => f.flatten.length)).sum := by
    intro T
    induction T with
    | nil => rfl
    | cons f T ih => simp [ih]
  rw [e, e, this, off, List.take_of_length_le (by simp), List.length_flatten]

/-! ## The arrays -/

theorem mapRows_get (T : List (List (List (Arc W)))) (r s : Nat) (f : List (List (Arc W))) (row : List (Arc W))
    (hf : T[r]? = some f) (hr : f[s]? = some row) :
    (mapRows T).flatten[off T r + s]? = some ((if s + 1 < f.length then [-1] else []) ++
      (List.range row.length).map (fun k => ((apos T (off T r + s) + k : Nat) : Int))) := by
  have hs := (List.getElem?_eq_some_iff.mp hr).1
  have hm : (mapRows T)[r]? = some (f.mapIdx (fun s row => (if s + 1 < f.length then [-1] else []) ++
      (List.range row.length).map (fun k => ((apos T (off T r + s) + k : Nat) : Int)))) := by
    rw [mapRows, List.getElem?_mapIdx, hf]
    rfl
  have ho : off (mapRows T) r = off T r := by
    rw [off, off]
    congr 2
    apply List.ext_getElem?
    intro i
    rw [List.getElem?_map, List.getElem?_map, mapRows, List.getElem?_mapIdx]
    cases T[i]? <;> simp
  rw [← ho, state_at (mapRows T) r s _ hm (by simpa using hs), List.getElem?_mapIdx, hr, ho]
  rfl

theorem mapRows_lengths [Zero W] (T : List (List (List (Arc W)))) :
    (mapRows T).flatten.map List.length = (T.map withLoops).flatten.map List.length := by
  rw [mapRows, List.map_flatten, List.map_flatten]
  congr 1
  apply List.ext_getElem?
  intro i
  rw [List.getElem?_map, List.getElem?_mapIdx, List.getElem?_map, List.getElem?_map]
  cases T[i]? with
  | none => rfl
  | some f =>
    simp only [Option.map_some]
    congr 1
    apply List.ext_getElem?
    intro s
    rw [withLoops, List.getElem?_map, List.getElem?_mapIdx, List.getElem?_map, List.getElem?_mapIdx]
    cases f[s]? with
    | none => rfl
    | some row =>
      simp only [Option.map_some]
      congr 1
      split <;> simp

/-- Every arc has a place in a row. -/
theorem place {X : Type} (T : List (List (List X))) (j : Nat) (h : j < T.flatten.flatten.length) :
    ∃ (r s k : Nat) (f : List (List X)) (row : List X) (a : X), T[r]? = some f ∧ f[s]? = some row ∧ row[k]? = some a ∧
      j = apos T (off T r + s) + k := by
  obtain ⟨g, row, k, h1, h2, h3⟩ := flatten_pos T.flatten j h
  have hg := (List.getElem?_eq_some_iff.mp h1).1
  obtain ⟨r, f, s, e1, e2, e3⟩ := state_pos T g hg
  subst e3
  rw [state_at T r s f e1 e2] at h1
  exact ⟨r, s, k, f, row, row[k], e1, h1, List.getElem?_eq_getElem h2, by rw [h3, splits_eq_take]; rfl⟩

/-- An element of the new arrays. -/
theorem new_elem [Zero W] (T : List (List (List (Arc W)))) (g k : Nat) (row : List (Arc W)) (mrow : List Int) (a : Arc W)
    (m : Int) (hr : (T.map withLoops).flatten[g]? = some row) (hm : (mapRows T).flatten[g]? = some mrow)
    (ha : row[k]? = some a) (hmk : mrow[k]? = some m) :
    ((flat (T.map withLoops)).id2.zip ((T.map withLoops).flatten.flatten.zip (mapRows T).flatten.flatten))[apos (T.map withLoops) g + k]? =
      some (g, a, m) := by
  have hk := (List.getElem?_eq_some_iff.mp ha).1
  have hk' := (List.getElem?_eq_some_iff.mp hmk).1
  have e1 := flat_id2 (T.map withLoops) g k row hr hk
  have e2 := flat_arc (T.map withLoops) g k row hr hk
  have e3 := flat_arc (mapRows T) g k mrow hm hk'
  have e4 : apos (mapRows T) g = apos (T.map withLoops) g := by rw [apos, apos, mapRows_lengths]
  rw [e4] at e3
  rw [List.getElem?_zip_eq_some, List.getElem?_zip_eq_some]
  exact ⟨e1, e2.trans ha, e3.trans hmk⟩

section
variable [Zero W] (T : List (List (List (Arc W))))

omit [Zero W] in
theorem nonempty_eq : (List.range T.length).mapM (nonempty (flat T)) =
    some (T.map (fun f => if 0 < f.length then 1 else 0)) := by
  apply mapM_some_of
  · simp
  · intro i b hb
    have hi : i < T.length := by simpa using (List.getElem?_eq_some_iff.mp hb).1
    rw [List.getElem?_range hi] at hb
    obtain rfl := Option.some.inj hb
    have hf := List.getElem?_eq_getElem hi
    rw [nonempty, flat_sp1 T i (by omega), flat_sp1_succ T i _ hf, List.getElem?_map, hf]
    simp

omit [Zero W] in
theorem mods_get (r : Nat) (hr : r ≤ T.length) :
    (psum (T.map (fun f => if 0 < f.length then 1 else 0)))[r]? = some (cnt T r) :=
  psum_get _ _ (by rw [List.length_map]; exact hr)

theorem copyThread_eq (r s k : Nat) (f : List (List (Arc W))) (row : List (Arc W)) (a : Arc W) (hf : T[r]? = some f)
    (hr : f[s]? = some row) (ha : row[k]? = some a) :
    copyThread (flat T) (psum (T.map (fun f => if 0 < f.length then 1 else 0))) (apos T (off T r + s) + k) =
      some (apos (T.map withLoops) (off T r + s) + (k + 1),
        (off T r + s, a, ((apos T (off T r + s) + k : Nat) : Int))) := by
  have hs := (List.getElem?_eq_some_iff.mp hr).1
  have hk := (List.getElem?_eq_some_iff.mp ha).1
  have hg : T.flatten[off T r + s]? = some row := by rw [state_at T r s f hf hs, hr]
  have e3 : (flat T).arcs[apos T (off T r + s) + k]? = some a := by
    rw [show (flat T).arcs = T.flatten.flatten from rfl, flat_arc T _ k row hg hk, ha]
  have hle : cnt T r ≤ off T r := cnt_le T r
  rw [copyThread, flat_id2 T _ k row hg hk]
  simp only [Option.bind_eq_bind, Option.bind_some]
  rw [flat_id1 T r s f hf hs]
  simp only [Option.bind_some]
  rw [mods_get T r (by have := (List.getElem?_eq_some_iff.mp hf).1; omega)]
  simp only [Option.bind_some]
  rw [e3, Option.bind_some, apos_loops T r s f hf hs]
  congr 2
  omega

theorem loopThread_eq (r s : Nat) (f : List (List (Arc W))) (hf : T[r]? = some f) (hs : s < f.length) :
    loopThread (flat T) (psum (T.map (fun f => if 0 < f.length then 1 else 0))) (off T r + s) =
      some (if s + 1 < f.length then [(apos (T.map withLoops) (off T r + s), (off T r + s, ⟨s, s, 0, 0⟩, -1))] else [],
        (off T r + s, apos (T.map withLoops) (off T r + s)) ::
          (if s + 1 = f.length ∧ off T r + s + 1 = T.flatten.length then
            [(T.flatten.length, apos (T.map withLoops) (off T r + s))] else [])) := by
  have hlt := off_lt T r s f hf hs
  rw [loopThread, flat_id1 T r s f hf hs]
  simp only [Option.bind_eq_bind, Option.bind_some]
  rw [mods_get T r (by have := (List.getElem?_eq_some_iff.mp hf).1; omega),
    flat_sp1 T r (by have := (List.getElem?_eq_some_iff.mp hf).1; omega), flat_sp1_succ T r f hf,
    flat_sp2 T _ (by omega)]
  simp only [Option.bind_some]
  rw [← apos_loops T r s f hf hs, flat_id1_length, Nat.add_sub_cancel_left]
  by_cases h1 : s + 1 < f.length
  · rw [if_pos (by omega), if_pos h1, if_neg (by omega)]
  · rw [if_neg (by omega), if_neg h1]
    by_cases h2 : off T r + s + 1 = T.flatten.length
    · rw [if_pos h2, if_pos ⟨by omega, h2⟩]
    · rw [if_neg h2, if_neg (fun h => h2 h.2)]

/-- **C30** for vectors: every FSA gets its loops, the arc map names the arcs, every element is written, and all
writes are inside the arrays. -/
theorem addLoopsVec_eq (hl : ∀ f ∈ T, LastEmpty f) :
    addLoopsVec (flat T) = some (flat (T.map withLoops), (mapRows T).flatten.flatten) := by
  unfold addLoopsVec
  rw [flat_id1_length]
  by_cases h0 : T.flatten.length = 0
  · rw [if_pos h0]
    have hnil : ∀ f ∈ T, f = [] := by
      intro f hf
      have : T.flatten = [] := List.eq_nil_of_length_eq_zero h0
      exact (List.flatten_eq_nil_iff.mp this) f hf
    have h1 : T.map withLoops = T := by
      conv_rhs => rw [← List.map_id T]
      apply List.map_congr_left
      intro f hf
      rw [hnil f hf]
      rfl
    have h2 : (mapRows T).flatten.flatten = [] := by
      have := mapRows_lengths T
      rw [h1, List.eq_nil_of_length_eq_zero h0, List.map_nil] at this
      rw [List.map_eq_nil_iff.mp this]
      rfl
    rw [h1, h2]
  rw [if_neg h0, flat_sp1_length, Nat.add_sub_cancel, nonempty_eq]
  simp only [Option.bind_eq_bind, Option.bind_some]
  rw [mods_get T _ (le_refl _)]
  simp only [Option.bind_some]
  have htot := loops_arcs T
  have harcs : (flat T).arcs = T.flatten.flatten := rfl
  have hn : (flat T).arcs.length + T.flatten.length - cnt T T.length = (T.map withLoops).flatten.flatten.length := by
    rw [harcs]; omega
  rw [hn]
  -- the threads
  have hcw : (List.range (flat T).arcs.length).mapM
      (copyThread (flat T) (psum (T.map (fun f => if 0 < f.length then 1 else 0)))) = some
      ((List.range (flat T).arcs.length).map (fun i => ((copyThread (flat T)
        (psum (T.map (fun f => if 0 < f.length then 1 else 0))) i).getD (0, 0, ⟨0, 0, 0, 0⟩, 0)))) := by
    apply Comp.mapM_total
    intro i hi
    obtain ⟨r, s, k, f, row, a, e1, e2, e3, rfl⟩ := place T i (List.mem_range.mp hi)
    rw [copyThread_eq T r s k f row a e1 e2 e3]
    rfl
  have hlw : (List.range T.flatten.length).mapM
      (loopThread (flat T) (psum (T.map (fun f => if 0 < f.length then 1 else 0)))) = some
      ((List.range T.flatten.length).map (fun g => ((loopThread (flat T)
        (psum (T.map (fun f => if 0 < f.length then 1 else 0))) g).getD ([], [])))) := by
    apply Comp.mapM_total
    intro g hg
    obtain ⟨r, f, s, e1, e2, rfl⟩ := state_pos T g (List.mem_range.mp hg)
    rw [loopThread_eq T r s f e1 e2]
    rfl
  rw [hcw, hlw]
  simp only [Option.bind_some]
  generalize hC : (List.range (flat T).arcs.length).map (fun i => ((copyThread (flat T)
        (psum (T.map (fun f => if 0 < f.length then 1 else 0))) i).getD (0, 0, ⟨0, 0, 0, 0⟩, 0))) = C
  generalize hL : (List.range T.flatten.length).map (fun g => ((loopThread (flat T)
        (psum (T.map (fun f => if 0 < f.length then 1 else 0))) g).getD ([], []))) = L
  have hCm : ∀ w, w ∈ C ↔ ∃ (r s k : Nat) (f : List (List (Arc W))) (row : List (Arc W)) (a : Arc W), T[r]? = some f ∧
      f[s]? = some row ∧ row[k]? = some a ∧ w = (apos (T.map withLoops) (off T r + s) + (k + 1),
        (off T r + s, a, ((apos T (off T r + s) + k : Nat) : Int))) := by
    intro w
    rw [← hC, List.mem_map]
    constructor
    · rintro ⟨i, hi, rfl⟩
      obtain ⟨r, s, k, f, row, a, e1, e2, e3, rfl⟩ := place T i (List.mem_range.mp hi)
      exact ⟨r, s, k, f, row, a, e1, e2, e3, by rw [copyThread_eq T r s k f row a e1 e2 e3]; rfl⟩
    · rintro ⟨r, s, k, f, row, a, e1, e2, e3, rfl⟩
      refine ⟨apos T (off T r + s) + k, List.mem_range.mpr ?_, by rw [copyThread_eq T r s k f row a e1 e2 e3]; rfl⟩
      have hs := (List.getElem?_eq_some_iff.mp e2).1
      have hk := (List.getElem?_eq_some_iff.mp e3).1
      have := flat_arc T (off T r + s) k row (by rw [state_at T r s f e1 hs, e2]) hk
      rw [e3] at this
      exact (List.getElem?_eq_some_iff.mp this).1
  have hLm : ∀ x, x ∈ L ↔ ∃ (r s : Nat) (f : List (List (Arc W))), T[r]? = some f ∧ s < f.length ∧
      x = (if s + 1 < f.length then [(apos (T.map withLoops) (off T r + s), (off T r + s, ⟨s, s, 0, 0⟩, -1))] else [],
        (off T r + s, apos (T.map withLoops) (off T r + s)) ::
          (if s + 1 = f.length ∧ off T r + s + 1 = T.flatten.length then
            [(T.flatten.length, apos (T.map withLoops) (off T r + s))] else [])) := by
    intro x
    rw [← hL, List.mem_map]
    constructor
    · rintro ⟨g, hg, rfl⟩
      obtain ⟨r, f, s, e1, e2, rfl⟩ := state_pos T g (List.mem_range.mp hg)
      exact ⟨r, s, f, e1, e2, by rw [loopThread_eq T r s f e1 e2]; rfl⟩
    · rintro ⟨r, s, f, e1, e2, rfl⟩
      exact ⟨off T r + s, List.mem_range.mpr (off_lt T r s f e1 e2), by rw [loopThread_eq T r s f e1 e2]; rfl⟩
  have hrow : ∀ (r s : Nat) (f : List (List (Arc W))) (row : List (Arc W)), T[r]? = some f → f[s]? = some row →
      (T.map withLoops).flatten[off T r + s]? = some (if s + 1 < f.length then ⟨s, s, 0, 0⟩ :: row else row) := by
    intro r s f row e1 e2
    have hs := (List.getElem?_eq_some_iff.mp e2).1
    have hw : (T.map withLoops)[r]? = some (withLoops f) := by rw [List.getElem?_map, e1]; rfl
    have := state_at (T.map withLoops) r s _ hw (by rw [withLoops_length]; exact hs)
    rw [off_loops] at this
    rw [this, withLoops_get f s row e2]
  have hnonfinal : ∀ (r s k : Nat) (f : List (List (Arc W))) (row : List (Arc W)) (a : Arc W), T[r]? = some f →
      f[s]? = some row → row[k]? = some a → s + 1 < f.length := by
    intro r s k f row a e1 e2 e3
    have hs := (List.getElem?_eq_some_iff.mp e2).1
    by_contra hlt
    have := hl f (List.mem_of_getElem? e1) row (by rw [show f.length - 1 = s by omega]; exact e2)
    subst this
    simp at e3
  have hlen2 : (mapRows T).flatten.flatten.length = (T.map withLoops).flatten.flatten.length := by
    rw [List.length_flatten, List.length_flatten, mapRows_lengths]
  have hlen3 : (flat (T.map withLoops)).id2.length = (T.map withLoops).flatten.flatten.length := by
    rw [List.length_flatten]
    simp [flat]
  have hout : scatter (T.map withLoops).flatten.flatten.length (C ++ L.flatMap Prod.fst) =
      some ((flat (T.map withLoops)).id2.zip ((T.map withLoops).flatten.flatten.zip (mapRows T).flatten.flatten)) ∧
      ∀ w ∈ C ++ L.flatMap Prod.fst, w.1 < (T.map withLoops).flatten.flatten.length := by
    have hzl : ((flat (T.map withLoops)).id2.zip ((T.map withLoops).flatten.flatten.zip (mapRows T).flatten.flatten)).length =
        (T.map withLoops).flatten.flatten.length := by
      rw [List.length_zip, List.length_zip, hlen2, hlen3]
      omega
    have hagree : ∀ w ∈ C ++ L.flatMap Prod.fst,
        ((flat (T.map withLoops)).id2.zip ((T.map withLoops).flatten.flatten.zip (mapRows T).flatten.flatten))[w.1]? = some w.2 := by
      intro w hw
      rcases List.mem_append.mp hw with hw | hw
      · obtain ⟨r, s, k, f, row, a, e1, e2, e3, rfl⟩ := (hCm w).mp hw
        have hnf := hnonfinal r s k f row a e1 e2 e3
        have hr := hrow r s f row e1 e2
        have hm := mapRows_get T r s f row e1 e2
        rw [if_pos hnf] at hr hm
        refine new_elem T _ (k + 1) _ _ a _ hr hm (by rw [List.getElem?_cons_succ, e3]) ?_
        rw [List.singleton_append, List.getElem?_cons_succ, List.getElem?_map,
          List.getElem?_range (List.getElem?_eq_some_iff.mp e3).1]
        rfl
      · obtain ⟨x, hx, hwx⟩ := List.mem_flatMap.mp hw
        obtain ⟨r, s, f, e1, e2, rfl⟩ := (hLm x).mp hx
        by_cases hnf : s + 1 < f.length
        · simp only [if_pos hnf, List.mem_singleton] at hwx
          subst hwx
          have e3 := List.getElem?_eq_getElem e2
          have hr := hrow r s f _ e1 e3
          have hm := mapRows_get T r s f _ e1 e3
          rw [if_pos hnf] at hr hm
          exact new_elem T _ 0 _ _ _ _ hr hm rfl rfl
        · simp only [if_neg hnf, List.not_mem_nil] at hwx
    refine ⟨scatter_eq _ _ _ hzl hagree ?_, ?_⟩
    · intro j hj
      obtain ⟨r, s, k, f', row', a, e1, e2, e3, rfl⟩ := place (T.map withLoops) j hj
      rw [List.getElem?_map] at e1
      obtain ⟨f, e1', rfl⟩ := Option.map_eq_some_iff.mp e1
      have hs : s < f.length := by
        have := (List.getElem?_eq_some_iff.mp e2).1
        rwa [withLoops_length] at this
      have e4 := List.getElem?_eq_getElem hs
      have hw := withLoops_get f s _ e4
      rw [e2] at hw
      have hw := Option.some.inj hw
      rw [off_loops]
      by_cases hnf : s + 1 < f.length
      · rw [if_pos hnf] at hw
        cases k with
        | zero =>
          refine ⟨(apos (T.map withLoops) (off T r + s), (off T r + s, ⟨s, s, 0, 0⟩, -1)),
            List.mem_append.mpr (Or.inr (List.mem_flatMap.mpr ⟨_, (hLm _).mpr ⟨r, s, f, e1', hs, rfl⟩, ?_⟩)), rfl⟩
          simp only [if_pos hnf, List.mem_singleton]
        | succ k =>
          rw [hw, List.getElem?_cons_succ] at e3
          exact ⟨_, List.mem_append.mpr (Or.inl ((hCm _).mpr ⟨r, s, k, f, _, a, e1', e4, e3, rfl⟩)), rfl⟩
      · rw [if_neg hnf] at hw
        rw [hw] at e3
        exact absurd (hnonfinal r s k f _ a e1' e4 e3) hnf
    · intro w hw
      have := (List.getElem?_eq_some_iff.mp (hagree w hw)).1
      omega
  have hsp : scatter (T.flatten.length + 1) (L.flatMap Prod.snd) = some (flat (T.map withLoops)).sp2 := by
    have hfl : (T.map withLoops).flatten.length = T.flatten.length := by
      rw [List.length_flatten, List.length_flatten, List.map_map]
      congr 1
      apply List.map_congr_left
      intro f _
      exact withLoops_length f
    apply scatter_eq
    · rw [flat, psum_length, List.length_map, hfl]
    · intro w hw
      obtain ⟨x, hx, hwx⟩ := List.mem_flatMap.mp hw
      obtain ⟨r, s, f, e1, e2, rfl⟩ := (hLm x).mp hx
      have hlt := off_lt T r s f e1 e2
      rcases List.mem_cons.mp hwx with rfl | hwx
      · exact flat_sp2 _ _ (by omega)
      · split at hwx
        · rename_i hc
          rw [List.mem_singleton] at hwx
          subst hwx
          have e3 := List.getElem?_eq_getElem e2
          have hr := hrow r s f _ e1 e3
          have hnil := hl f (List.mem_of_getElem? e1) f[s] (by rw [show f.length - 1 = s by omega]; exact e3)
          rw [if_neg (by omega), hnil] at hr
          have := flat_sp2_succ _ _ _ hr
          rw [hc.2] at this
          exact this
        · simp at hwx
    · intro j hj
      by_cases hjl : j < T.flatten.length
      · obtain ⟨r, f, s, e1, e2, rfl⟩ := state_pos T j hjl
        exact ⟨_, List.mem_flatMap.mpr ⟨_, (hLm _).mpr ⟨r, s, f, e1, e2, rfl⟩, List.mem_cons_self⟩, rfl⟩
      · obtain ⟨r, f, s, e1, e2, e3⟩ := state_pos T (T.flatten.length - 1) (by omega)
        have hlast : s + 1 = f.length := by
          by_contra hne
          have := off_lt T r (s + 1) f e1 (by omega)
          omega
        refine ⟨(T.flatten.length, apos (T.map withLoops) (off T r + s)),
          List.mem_flatMap.mpr ⟨_, (hLm _).mpr ⟨r, s, f, e1, e2, rfl⟩, ?_⟩,
          show T.flatten.length = j by omega⟩
        simp only
        rw [if_pos ⟨hlast, by omega⟩]
        simp
  rw [hout.1, hsp]
  simp only [Option.bind_some]
  rw [if_pos hout.2, List.map_fst_zip (by rw [List.length_zip, hlen2, hlen3]; omega)]
  have h3 : ((flat (T.map withLoops)).id2.zip ((T.map withLoops).flatten.flatten.zip (mapRows T).flatten.flatten)).map
      (fun x => x.2.1) = (T.map withLoops).flatten.flatten := by
    rw [show (fun x : Nat × Arc W × Int => x.2.1) = Prod.fst ∘ Prod.snd from rfl, ← List.map_map,
      List.map_snd_zip (by rw [List.length_zip, hlen2, hlen3]; omega), List.map_fst_zip (by omega)]
  have h4 : ((flat (T.map withLoops)).id2.zip ((T.map withLoops).flatten.flatten.zip (mapRows T).flatten.flatten)).map
      (fun x => x.2.2) = (mapRows T).flatten.flatten := by
    rw [show (fun x : Nat × Arc W × Int => x.2.2) = Prod.snd ∘ Prod.snd from rfl, ← List.map_map,
      List.map_snd_zip (by rw [List.length_zip, hlen2, hlen3]; omega), List.map_snd_zip (by omega)]
  rw [h3, h4]
  have h5 : (T.map withLoops).map List.length = T.map List.length := by
    rw [List.map_map]
    apply List.map_congr_left
    intro f _
    exact withLoops_length f
  unfold flat
  rw [h5]

end

/-! ## What the loops change -/

theorem withLoops_mem [Zero W] (f : List (List (Arc W))) (a : Arc W) :
    a ∈ (withLoops f).flatten ↔ a ∈ f.flatten ∨ ∃ s, s + 1 < f.length ∧ a = ⟨s, s, 0, 0⟩ := by
  constructor
  · intro ha
    obtain ⟨row, hr, har⟩ := List.mem_flatten.mp ha
    obtain ⟨s, hs⟩ := List.mem_iff_getElem?.mp hr
    have hlt : s < f.length := by
      have := (List.getElem?_eq_some_iff.mp hs).1
      rwa [withLoops_length] at this
    have e := List.getElem?_eq_getElem hlt
    rw [withLoops_get f s _ e] at hs
    have hs := Option.some.inj hs
    split at hs
    · rename_i hc
      rw [← hs] at har
      rcases List.mem_cons.mp har with rfl | har
      · exact Or.inr ⟨s, hc, rfl⟩
      · exact Or.inl (List.mem_flatten.mpr ⟨_, List.mem_of_getElem? e, har⟩)
    · rw [← hs] at har
      exact Or.inl (List.mem_flatten.mpr ⟨_, List.mem_of_getElem? e, har⟩)
  · rintro (ha | ⟨s, hs, rfl⟩)
    · obtain ⟨row, hr, har⟩ := List.mem_flatten.mp ha
      obtain ⟨s, hs⟩ := List.mem_iff_getElem?.mp hr
      refine List.mem_flatten.mpr ⟨_, List.mem_of_getElem? (withLoops_get f s row hs), ?_⟩
      split
      · exact List.mem_cons_of_mem _ har
      · exact har
    · refine List.mem_flatten.mpr ⟨_, List.mem_of_getElem? (withLoops_get f s _
        (List.getElem?_eq_getElem (show s < f.length by omega))), ?_⟩
      rw [if_pos hs]
      exact List.mem_cons_self

theorem withLoops_rows [Zero W] (f : List (List (Arc W))) (hf : RowsOk f) : RowsOk (withLoops f) := by
  intro s row hs a ha
  have hlt : s < f.length := by
    have := (List.getElem?_eq_some_iff.mp hs).1
    rwa [withLoops_length] at this
  have e := List.getElem?_eq_getElem hlt
  rw [withLoops_get f s _ e] at hs
  have hs := Option.some.inj hs
  rw [withLoops_length]
  split at hs
  · rw [← hs] at ha
    rcases List.mem_cons.mp ha with rfl | ha
    · exact ⟨rfl, hlt⟩
    · exact hf s _ e a ha
  · rw [← hs] at ha
    exact hf s _ e a ha

theorem lastEmpty_of_valid (f : List (List (Arc W))) (hf : RowsOk f) (hv : f = [] ∨ (rowsFsa f).Valid) : LastEmpty f := by
  intro row hr
  rcases hv with rfl | hv
  · simp at hr
  · cases row with
    | nil => rfl
    | cons a row =>
      have h1 := hv.src_lt a (List.mem_flatten.mpr ⟨_, List.mem_of_getElem? hr, List.mem_cons_self⟩)
      have h2 := (hf _ _ hr a List.mem_cons_self).1
      simp only [Fsa.final, rowsFsa] at h1
      omega

theorem withLoops_valid [Zero W] (f : List (List (Arc W))) (hf : RowsOk f) (hv : (rowsFsa f).Valid) :
    (rowsFsa (withLoops f)).Valid := by
  have h2 := hv.two
  have hl := withLoops_length f
  refine ⟨by simpa [rowsFsa, hl] using h2, ?_, ?_, ?_, ?_⟩
  · exact Comp.rowsOk_sorted _ (withLoops_rows f hf)
  · intro a ha
    simp only [Fsa.final, rowsFsa, hl] at ha ⊢
    rcases (withLoops_mem f a).mp ha with ha | ⟨s, hs, rfl⟩
    · exact hv.src_lt a ha
    · show s < f.length - 1
      omega
  · intro a ha
    simp only [rowsFsa, hl] at ha ⊢
    rcases (withLoops_mem f a).mp ha with ha | ⟨s, hs, rfl⟩
    · exact hv.dst_lt a ha
    · show s < f.length
      omega
  · intro a ha
    simp only [Fsa.final, rowsFsa, hl] at ha ⊢
    rcases (withLoops_mem f a).mp ha with ha | ⟨s, hs, rfl⟩
    · exact hv.final_iff a ha
    · show (0 : Int) = -1 ↔ s = f.length - 1
      constructor <;> intro h <;> omega

theorem accepts_congr [Add W] [Zero W] (f g : Fsa W) (hn : f.numStates = g.numStates)
    (hm : ∀ a, a ∈ f.arcs ↔ a ∈ g.arcs) (s : List Int) (w : W) : Accepts f s w ↔ Accepts g s w := by
  have hfin : f.final = g.final := by simp only [Fsa.final, hn]
  constructor
  · rintro ⟨p, ⟨h2, hp⟩, e1, e2⟩
    exact ⟨p, ⟨hn ▸ h2, hfin ▸ hp.mono (fun a => (hm a).mp)⟩, e1, e2⟩
  · rintro ⟨p, ⟨h2, hp⟩, e1, e2⟩
    exact ⟨p, ⟨hn ▸ h2, hfin ▸ hp.mono (fun a => (hm a).mpr)⟩, e1, e2⟩

/-- **C30 (vectors).** `AddEpsilonSelfLoops` on a vector returns a vector of as many FSAs.  Each is the
FSA at the same place with a loop of score 0 at the front of every state but the last, and accepts
the same strings with the same scores.  An FSA without states stays one.  The arc map says which
arc each arc was before, and -1 for the loops. -/
theorem addLoopsVec_correct [AddMonoid W] (T : List (List (List (Arc W))))
    (hr : ∀ f ∈ T, RowsOk f) (hv : ∀ f ∈ T, f = [] ∨ (rowsFsa f).Valid) :
    ∃ R m, addLoopsVec (flat T) = some (flat R, m) ∧ R.length = T.length ∧
      m.length = R.flatten.flatten.length ∧
      (∀ (j : Nat) (v : Int), m[j]? = some v → ∃ b, R.flatten.flatten[j]? = some b ∧
        (v = -1 ∧ b = ⟨b.src, b.src, 0, 0⟩ ∨ 0 ≤ v ∧ T.flatten.flatten[v.toNat]? = some b)) ∧
      ∀ (r : Nat) (f : List (List (Arc W))), T[r]? = some f → R[r]? = some (withLoops f) ∧ RowsOk (withLoops f) ∧
        (f = [] ∧ withLoops f = [] ∨ (rowsFsa (withLoops f)).Valid) ∧
        ∀ s w, Accepts (rowsFsa (withLoops f)) s w ↔ Accepts (rowsFsa f) s w := by
  have hlen2 : (mapRows T).flatten.flatten.length = (T.map withLoops).flatten.flatten.length := by
    rw [List.length_flatten, List.length_flatten, mapRows_lengths]
  refine ⟨T.map withLoops, (mapRows T).flatten.flatten,
    addLoopsVec_eq T (fun f hf => lastEmpty_of_valid f (hr f hf) (hv f hf)), by simp, hlen2, ?_, ?_⟩
  · intro j v hj
    obtain ⟨r, s, k, f', row', b, e1, e2, e3, rfl⟩ := place (T.map withLoops) j (by
      rw [← hlen2]; exact (List.getElem?_eq_some_iff.mp hj).1)
    rw [List.getElem?_map] at e1
    obtain ⟨f, e1', rfl⟩ := Option.map_eq_some_iff.mp e1
    have hs : s < f.length := by
      have := (List.getElem?_eq_some_iff.mp e2).1
      rwa [withLoops_length] at this
    have e4 := List.getElem?_eq_getElem hs
    have hw : (T.map withLoops)[r]? = some (withLoops f) := by rw [List.getElem?_map, e1']; rfl
    have hst := state_at (T.map withLoops) r s _ hw (by rw [withLoops_length]; exact hs)
    rw [e2] at hst
    have hm := mapRows_get T r s f _ e1' e4
    have hk := (List.getElem?_eq_some_iff.mp e3).1
    refine ⟨b, (flat_arc (T.map withLoops) _ k row' hst hk).trans e3, ?_⟩
    have e5 : apos (mapRows T) (off (T.map withLoops) r + s) = apos (T.map withLoops) (off (T.map withLoops) r + s) := by
      rw [apos, apos, mapRows_lengths]
    have hwr := withLoops_get f s _ e4
    rw [e2] at hwr
    have hwr := Option.some.inj hwr
    have hmk : k < ((if s + 1 < f.length then [-1] else []) ++ (List.range f[s].length).map
        (fun k => ((apos T (off T r + s) + k : Nat) : Int))).length := by
      rw [hwr] at hk
      split at hk
      · rename_i hc
        rw [if_pos hc]
        simp only [List.length_cons] at hk
        simp
        omega
      · rename_i hc
        rw [if_neg hc]
        simpa using hk
    have hmj := flat_arc (mapRows T) (off T r + s) k _ hm hmk
    rw [← off_loops, e5, hj, off_loops] at hmj
    have hat : ∀ i, f[s][i]? = some b → T.flatten.flatten[apos T (off T r + s) + i]? = some b := by
      intro i hi
      exact (flat_arc T _ i _ (by rw [state_at T r s f e1' hs, e4]) (List.getElem?_eq_some_iff.mp hi).1).trans hi
    by_cases hc : s + 1 < f.length
    · rw [if_pos hc] at hmj hwr
      rw [hwr] at e3
      cases k with
      | zero =>
        left
        refine ⟨by simpa using hmj, ?_⟩
        have : (⟨s, s, 0, 0⟩ : Arc W) = b := by simpa using e3
        rw [← this]
      | succ k =>
        right
        rw [List.getElem?_cons_succ] at e3
        rw [List.singleton_append, List.getElem?_cons_succ, List.getElem?_map,
          List.getElem?_range (List.getElem?_eq_some_iff.mp e3).1] at hmj
        have hmj := Option.some.inj hmj
        rw [hmj]
        exact ⟨Int.natCast_nonneg _, by rw [Int.toNat_natCast]; exact hat k e3⟩
    · rw [if_neg hc] at hmj hwr
      rw [hwr] at e3
      right
      rw [List.nil_append, List.getElem?_map, List.getElem?_range (List.getElem?_eq_some_iff.mp e3).1] at hmj
      have hmj := Option.some.inj hmj
      rw [hmj]
      exact ⟨Int.natCast_nonneg _, by rw [Int.toNat_natCast]; exact hat k e3⟩
  · intro r f hf
    have hm := List.mem_of_getElem? hf
    refine ⟨by rw [List.getElem?_map, hf]; rfl, withLoops_rows f (hr f hm), ?_, ?_⟩
    · rcases hv f hm with rfl | h
      · exact Or.inl ⟨rfl, rfl⟩
      · exact Or.inr (withLoops_valid f (hr f hm) h)
    · intro s w
      rcases hv f hm with rfl | h
      · exact Iff.rfl
      · have hg := addLoops_eq h
        rw [← addLoops_accepts h hg]
        apply accepts_congr
        · simp [rowsFsa, withLoops_length]
        · intro a
          rw [addLoops_mem h hg]
          show a ∈ (withLoops f).flatten ↔ _
          rw [withLoops_mem]
          simp only [rowsFsa, Fsa.final]
          constructor
          · rintro (h | ⟨s, hs, rfl⟩)
            · exact Or.inl h
            · exact Or.inr ⟨s, by omega, rfl⟩
          · rintro (h | ⟨s, hs, rfl⟩)
            · exact Or.inl h
            · exact Or.inr ⟨s, by omega, rfl⟩

/-! ## Examples -/

/-- Two FSAs with an FSA without states in between. -/
def exT : List (List (List (Arc Int))) :=
  [[[⟨0, 1, 7, 1⟩, ⟨0, 2, -1, 2⟩], [⟨1, 2, -1, 3⟩], []], [], [[⟨0, 1, -1, 4⟩], []]]

example : (∀ f ∈ exT, RowsOk f) ∧ (∀ f ∈ exT, f = [] ∨ (rowsFsa f).Valid) := by
  have h : ∀ f ∈ exT, ∀ s, ∀ hs : s < f.length, ∀ a ∈ f[s], a.src = s ∧ a.dst < f.length := by decide
  refine ⟨fun f hf s row hr => ?_, ?_⟩
  · obtain ⟨hs, rfl⟩ := List.getElem?_eq_some_iff.mp hr
    exact h f hf s hs
  intro f hf
  simp only [exT, List.mem_cons, List.not_mem_nil, or_false] at hf
  rcases hf with rfl | rfl | rfl
  · exact Or.inr ⟨by decide, by unfold Fsa.Sorted; decide, by decide, by decide, by decide⟩
  · exact Or.inl rfl
  · exact Or.inr ⟨by decide, by unfold Fsa.Sorted; decide, by decide, by decide, by decide⟩

example : (addLoopsVec (flat exT)).map (fun x => (x.1.arcs, x.2)) =
    some ([⟨0, 0, 0, 0⟩, ⟨0, 1, 7, 1⟩, ⟨0, 2, -1, 2⟩, ⟨1, 1, 0, 0⟩, ⟨1, 2, -1, 3⟩, ⟨0, 0, 0, 0⟩, ⟨0, 1, -1, 4⟩],
      [-1, 0, 1, -1, 2, -1, 3]) := by decide

end Verif.Fsa.Lpv
