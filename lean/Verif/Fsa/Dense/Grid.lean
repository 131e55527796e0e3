import Verif.Fsa.Dense.Steps
import Verif.Fsa.Dense.Lattice
import Verif.Fsa.Connect.Restrict
import Verif.Ragged.UniqueProps
import Verif.Ragged.ChunkProps

/-!
# Numbering of the states of the result of `IntersectDense`

The states of all FSAs at all times are numbered first by the FSA, then by time, then by state
(`allGrid`); those that are kept form a nested list (`nest3`).
-/

set_option linter.unusedSectionVars false

namespace Verif.Fsa.Dn
open Verif.Ragged Verif.Util Verif.Fsa.Sco Verif.Fsa.Best
variable {K : Type} [AddCommGroup K] [LinearOrder K] [IsOrderedAddMonoid K]

local notation "S" => WithBot K

/-! ## All states at all times -/

/-- Values for the times 0 to `T` and `n` states. -/
def grid {X : Type} (T n : Nat) (g : Nat → Nat → X) : List X :=
  ((List.range (T + 1)).map (fun t => (List.range n).map (g t))).flatten

/-- Values for all FSAs, times and states. -/
def allGrid {X : Type} (P : List (Job S)) (T : Nat) (g : Nat → Job S → Nat → Nat → X) : List X :=
  (P.mapIdx (fun r p => grid T p.f.length (g r p))).flatten

theorem rows_splits {X : Type} (m n : Nat) (g : Nat → Nat → X) (t : Nat) (ht : t ≤ m) :
    splits ((List.range m).map (fun t => (List.range n).map (g t))) t = t * n := by
  induction t with
  | zero => simp
  | succ t ih =>
    rw [splits_succ _ t ((List.range n).map (g t)) (by
      rw [List.getElem?_map, List.getElem?_range (by omega)]; rfl), ih (by omega)]
    simp; ring

theorem grid_length {X : Type} (T n : Nat) (g : Nat → Nat → X) : (grid T n g).length = (T + 1) * n := by
  unfold grid
  rw [← splits_length, List.length_map, List.length_range, rows_splits _ _ _ _ (le_refl _)]

theorem grid_get {X : Type} (T n : Nat) (g : Nat → Nat → X) (t s : Nat) (ht : t ≤ T) (hs : s < n) :
    (grid T n g)[t * n + s]? = some (g t s) := by
  have h := flatten_get ((List.range (T + 1)).map (fun t => (List.range n).map (g t))) t
    ((List.range n).map (g t)) (by rw [List.getElem?_map, List.getElem?_range (by omega)]; rfl) s (by simpa using hs)
  rw [rows_splits _ _ _ _ (by omega)] at h
  rw [grid, h, List.getElem?_map, List.getElem?_range hs]; rfl

theorem grid_splits {X : Type} (P : List (Job S)) (T : Nat) (g : Nat → Job S → Nat → Nat → X) (r : Nat)
    (hr : r ≤ P.length) :
    splits (P.mapIdx (fun r p => grid T p.f.length (g r p))) r = (T + 1) * so P r := by
  induction r with
  | zero => simp [so, off]
  | succ r ih =>
    have hp := List.getElem?_eq_getElem (show r < P.length by omega)
    rw [splits_succ _ r (grid T P[r].f.length (g r P[r])) (by rw [List.getElem?_mapIdx, hp]; rfl),
      ih (by omega), grid_length, so_succ P r _ hp]
    ring

theorem so_last (P : List (Job S)) : so P P.length = (fsasOf P).flatten.length := by
  rw [so, off, fsasOf, List.length_flatten, List.take_of_length_le (by simp)]

theorem allGrid_length {X : Type} (P : List (Job S)) (T : Nat) (g : Nat → Job S → Nat → Nat → X) :
    (allGrid P T g).length = (T + 1) * (fsasOf P).flatten.length := by
  unfold allGrid
  rw [← splits_length, List.length_mapIdx, grid_splits P T g _ (le_refl _), so_last]

theorem grid_lt (T n t s : Nat) (ht : t ≤ T) (hs : s < n) : t * n + s < (T + 1) * n := by
  calc t * n + s < t * n + n := by omega
    _ = (t + 1) * n := by ring
    _ ≤ (T + 1) * n := Nat.mul_le_mul_right _ (by omega)

theorem allGrid_get {X : Type} (P : List (Job S)) (T : Nat) (g : Nat → Job S → Nat → Nat → X) (r : Nat)
    (p : Job S) (hp : P[r]? = some p) (t s : Nat) (ht : t ≤ T) (hs : s < p.f.length) :
    (allGrid P T g)[(T + 1) * so P r + t * p.f.length + s]? = some (g r p t s) := by
  have h := flatten_get (P.mapIdx (fun r p => grid T p.f.length (g r p))) r (grid T p.f.length (g r p))
    (by rw [List.getElem?_mapIdx, hp]; rfl) (t * p.f.length + s) (by
      rw [grid_length]; exact grid_lt _ _ _ _ ht hs)
  rw [grid_splits P T g r (by have := (List.getElem?_eq_some_iff.mp hp).1; omega), ← Nat.add_assoc] at h
  rw [allGrid, h, grid_get _ _ _ _ _ ht hs]

theorem grid_pos (P : List (Job S)) (T i : Nat) (hi : i < (T + 1) * (fsasOf P).flatten.length) :
    ∃ r p t s, P[r]? = some p ∧ t ≤ T ∧ s < p.f.length ∧ i = (T + 1) * so P r + t * p.f.length + s := by
  rw [← allGrid_length P T (fun _ _ _ _ => ())] at hi
  obtain ⟨r, l, k, hl, hk, rfl⟩ := flatten_pos _ i hi
  have hr := (List.getElem?_eq_some_iff.mp hl).1
  rw [List.length_mapIdx] at hr
  rw [List.getElem?_mapIdx, List.getElem?_eq_getElem hr] at hl
  obtain rfl := Option.some.inj hl
  rw [grid_length] at hk
  rw [grid_splits P T _ r (by omega)]
  have hn : 0 < P[r].f.length := by
    rcases Nat.eq_zero_or_pos P[r].f.length with h | h
    · rw [h] at hk; simp at hk
    · exact h
  refine ⟨r, P[r], k / P[r].f.length, k % P[r].f.length, List.getElem?_eq_getElem hr, ?_, Nat.mod_lt _ hn, ?_⟩
  · have := Nat.div_lt_of_lt_mul (by rw [Nat.mul_comm]; exact hk : k < P[r].f.length * (T + 1)); omega
  · have := Nat.div_add_mod k P[r].f.length
    rw [Nat.mul_comm] at this; omega

theorem mapM_grid {X : Type} (P : List (Job S)) (T : Nat) (g : Nat → Job S → Nat → Nat → X)
    (q : Nat → Option X) (h : ∀ r p t s, P[r]? = some p → t ≤ T → s < p.f.length →
      q ((T + 1) * so P r + t * p.f.length + s) = some (g r p t s)) :
    (List.range ((T + 1) * (fsasOf P).flatten.length)).mapM q = some (allGrid P T g) := by
  apply mapM_some_of
  · rw [allGrid_length, List.length_range]
  intro i b hb
  have hi : i < (T + 1) * (fsasOf P).flatten.length := by
    have := (List.getElem?_eq_some_iff.mp hb).1; simpa using this
  rw [List.getElem?_range hi] at hb
  obtain rfl := Option.some.inj hb
  obtain ⟨r, p, t, s, hp, ht, hs, rfl⟩ := grid_pos P T _ hi
  rw [h r p t s hp ht hs, allGrid_get P T g r p hp t s ht hs]

theorem allGrid_map {X Y : Type} (P : List (Job S)) (T : Nat) (g : Nat → Job S → Nat → Nat → X) (q : X → Y) :
    (allGrid P T g).map q = allGrid P T (fun r p t s => q (g r p t s)) := by
  apply List.ext_getElem?
  intro i
  by_cases hi : i < (T + 1) * (fsasOf P).flatten.length
  · obtain ⟨r, p, t, s, hp, ht, hs, rfl⟩ := grid_pos P T _ hi
    rw [List.getElem?_map, allGrid_get P T g r p hp t s ht hs, allGrid_get P T _ r p hp t s ht hs]; rfl
  · rw [List.getElem?_eq_none (by rw [List.length_map, allGrid_length]; omega),
      List.getElem?_eq_none (by rw [allGrid_length]; omega)]

/-! ## The states that are kept -/

/-- The flag of a state at a time. -/
def keepFlag (neg : S) (p : Job S) (t s : Nat) : Bool :=
  decide (t ≤ p.fr.length) && stFlag p.f p.fr (cutOf p.f p.fr neg) t s

/-- The flags of all states. -/
def allFlags (P : List (Job S)) (T : Nat) (neg : S) : List Bool := allGrid P T (fun _ p => keepFlag neg p)

/-- The states that are kept. -/
def kept (neg : S) (p : Job S) (t : Nat) : List Nat := kst p.f p.fr (cutOf p.f p.fr neg) t

/-- Values for the states that are kept. -/
def nest3 {X : Type} (P : List (Job S)) (neg : S) (val : Nat → Job S → Nat → Nat → X) : List (List (List X)) :=
  P.mapIdx (fun r p => (List.range (p.fr.length + 1)).map (fun t => (kept neg p t).map (val r p t)))

theorem sel_range {X : Type} (n : Nat) (g : Nat → Bool) (h : Nat → X) :
    sel ((List.range n).map g) ((List.range n).map h) = ((List.range n).filter g).map h := by
  rw [← sel_map, sel_filter]

theorem sel_false {X : Type} (l : List X) (k : List Bool) (h : ∀ b ∈ k, b = false) : sel k l = [] := by
  induction k generalizing l with
  | nil => rfl
  | cons b k ih =>
    cases l with
    | nil => rfl
    | cons x l =>
      obtain rfl := h b (by simp)
      rw [sel, if_neg (by simp)]
      exact ih l (fun b hb => h b (by simp [hb]))

theorem zipWith_range {X Y Z : Type} (q : X → Y → Z) (n : Nat) (g : Nat → X) (h : Nat → Y) :
    List.zipWith q ((List.range n).map g) ((List.range n).map h) = (List.range n).map (fun t => q (g t) (h t)) := by
  rw [List.zipWith_map, List.zipWith_self]

theorem range_cut {X : Type} (T m : Nat) (hm : m ≤ T) (g : Nat → List X) (h : ∀ t, m < t → t ≤ T → g t = []) :
    ((List.range (T + 1)).map g).flatten = ((List.range (m + 1)).map g).flatten := by
  obtain ⟨k, rfl⟩ := Nat.exists_eq_add_of_le hm
  induction k with
  | zero => rfl
  | succ k ih =>
    rw [← Nat.add_assoc, List.range_succ, List.map_append, List.flatten_append,
      ih (by omega) (fun t h1 h2 => h t h1 (by omega))]
    simp [h (m + k + 1) (by omega) (by omega)]

theorem sel_gridOne {X : Type} (T : Nat) (neg : S) (p : Job S) (hT : p.fr.length ≤ T) (val : Nat → Nat → X) :
    sel (grid T p.f.length (keepFlag neg p)) (grid T p.f.length val) =
      ((List.range (p.fr.length + 1)).map (fun t => (kept neg p t).map (val t))).flatten := by
  unfold grid
  rw [sel_flatten_rows _ _ (by rw [List.map_map, List.map_map]; apply List.map_congr_left; intro t _; simp),
    zipWith_range, range_cut T p.fr.length hT (fun t => sel ((List.range p.f.length).map (keepFlag neg p t))
      ((List.range p.f.length).map (val t)))]
  · congr 1
    apply List.map_congr_left
    intro t ht
    have ht' : t ≤ p.fr.length := by simp at ht; omega
    have e : keepFlag neg p t = stFlag p.f p.fr (cutOf p.f p.fr neg) t := by
      funext s; simp [keepFlag, ht']
    rw [sel_range, e]; rfl
  · intro t h1 h2
    apply sel_false
    intro b hb
    obtain ⟨s, -, rfl⟩ := List.mem_map.mp hb
    simp [keepFlag]; omega

theorem sel_allGrid {X : Type} (P : List (Job S)) (T : Nat) (neg : S) (hT : ∀ p ∈ P, p.fr.length ≤ T)
    (val : Nat → Job S → Nat → Nat → X) :
    sel (allFlags P T neg) (allGrid P T val) = (nest3 P neg val).flatten.flatten := by
  unfold allFlags allGrid
  rw [sel_flatten_rows _ _ (by
    apply List.ext_getElem?
    intro r
    rw [List.getElem?_map, List.getElem?_map, List.getElem?_mapIdx, List.getElem?_mapIdx]
    cases P[r]? <;> simp [grid_length])]
  have e : List.zipWith sel (P.mapIdx fun r p => grid T p.f.length (keepFlag neg p))
      (P.mapIdx fun r p => grid T p.f.length (val r p)) = (nest3 P neg val).map List.flatten := by
    apply List.ext_getElem?
    intro r
    rw [List.getElem?_zipWith, List.getElem?_map, List.getElem?_mapIdx, List.getElem?_mapIdx, nest3,
      List.getElem?_mapIdx]
    cases hp : P[r]? with
    | none => rfl
    | some p =>
      simp only [Option.map_some]
      rw [sel_gridOne T neg p (hT p (List.mem_of_getElem? hp))]
  rw [e]
  generalize nest3 P neg val = N
  induction N with
  | nil => rfl
  | cons a N ih => simp only [List.map_cons, List.flatten_cons, List.flatten_append, ih]

/-- The states that are kept, of all FSAs at all times. -/
def KK (P : List (Job S)) (neg : S) : List (List (List Nat)) :=
  P.map (fun p => kstAll p.f p.fr (cutOf p.f p.fr neg))

/-- The number of states of the results before FSA `r`. -/
def ko (P : List (Job S)) (neg : S) (r : Nat) : Nat := splits ((KK P neg).map List.flatten) r

/-- The number of a state of the result. -/
def gnum (P : List (Job S)) (neg : S) (r : Nat) (p : Job S) (t s : Nat) : Nat :=
  ko P neg r + num p.f p.fr (cutOf p.f p.fr neg) t s

theorem KK_get (P : List (Job S)) (neg : S) (r : Nat) (p : Job S) (hp : P[r]? = some p) :
    (KK P neg)[r]? = some (kstAll p.f p.fr (cutOf p.f p.fr neg)) := by
  rw [KK, List.getElem?_map, hp]; rfl

theorem kstAll_length (f : List (List (Arc S))) (fr : List (List S)) (cut : S) :
    (kstAll f fr cut).length = fr.length + 1 := by simp [kstAll]

theorem KK_state (P : List (Job S)) (neg : S) (r : Nat) (p : Job S) (hp : P[r]? = some p) (t : Nat)
    (ht : t ≤ p.fr.length) : (KK P neg).flatten[off (KK P neg) r + t]? = some (kept neg p t) := by
  rw [state_at _ r t _ (KK_get P neg r p hp) (by rw [kstAll_length]; omega), kstAll_get _ _ _ t ht]; rfl

theorem gnum_eq (P : List (Job S)) (neg : S) (r : Nat) (p : Job S) (hp : P[r]? = some p) (t s : Nat)
    (ht : t ≤ p.fr.length) :
    gnum P neg r p t s = apos (KK P neg) (off (KK P neg) r + t) + (kept neg p t).idxOf s := by
  rw [apos_add _ r t _ (KK_get P neg r p hp) (by rw [kstAll_length]; omega), gnum, num, ko, kept]
  omega

theorem nest3_lens {X : Type} (P : List (Job S)) (neg : S) (val : Nat → Job S → Nat → Nat → X) :
    (nest3 P neg val).map List.length = (KK P neg).map List.length ∧
    (nest3 P neg val).flatten.map List.length = (KK P neg).flatten.map List.length := by
  have key : (nest3 P neg val).map (fun l => l.map List.length) = (KK P neg).map (fun l => l.map List.length) := by
    apply List.ext_getElem?
    intro r
    rw [List.getElem?_map, List.getElem?_map, nest3, List.getElem?_mapIdx, KK, List.getElem?_map]
    cases P[r]? with
    | none => rfl
    | some p =>
      simp only [Option.map_some, kstAll, List.map_map]
      congr 1
      apply List.map_congr_left
      intro t _
      simp [kept]
  constructor
  · have := congrArg (fun l => l.map List.length) key
    simp only [List.map_map] at this
    have e : (List.length ∘ fun l : List (List X) => l.map List.length) = List.length := by funext l; simp
    have e' : (List.length ∘ fun l : List (List Nat) => l.map List.length) = List.length := by funext l; simp
    rw [e, e'] at this
    exact this
  · rw [List.map_flatten, List.map_flatten, key]

theorem nest3_get {X : Type} (P : List (Job S)) (neg : S) (val : Nat → Job S → Nat → Nat → X) (r : Nat)
    (p : Job S) (hp : P[r]? = some p) (t s : Nat) (ht : t ≤ p.fr.length) (hs : s ∈ kept neg p t) :
    (nest3 P neg val).flatten.flatten[gnum P neg r p t s]? = some (val r p t s) := by
  obtain ⟨h1, h2⟩ := nest3_lens P neg val
  have hi := List.idxOf_lt_length_of_mem hs
  have ha : apos (nest3 P neg val) = apos (KK P neg) := by funext g; unfold apos; rw [h2]
  have ho : off (nest3 P neg val) = off (KK P neg) := by funext g; unfold off; rw [h1]
  have hr : (nest3 P neg val)[r]? =
      some ((List.range (p.fr.length + 1)).map (fun t => (kept neg p t).map (val r p t))) := by
    rw [nest3, List.getElem?_mapIdx, hp]; rfl
  have hst := state_at _ r t _ hr (by simp; omega)
  rw [List.getElem?_map, List.getElem?_range (by omega)] at hst
  have h3 := flat_arc _ _ ((kept neg p t).idxOf s) _ hst (by simpa using hi)
  rw [ha, ho] at h3
  rw [gnum_eq P neg r p hp t s ht, h3, List.getElem?_map, List.getElem?_eq_getElem hi, List.getElem_idxOf hi]
  rfl

theorem nest3_length {X : Type} (P : List (Job S)) (neg : S) (val : Nat → Job S → Nat → Nat → X) :
    (nest3 P neg val).flatten.flatten.length = (KK P neg).flatten.flatten.length := by
  rw [List.length_flatten, List.length_flatten, (nest3_lens P neg val).2]

theorem gnum_surj (P : List (Job S)) (neg : S) (x : Nat) (hx : x < (KK P neg).flatten.flatten.length) :
    ∃ r p t s, P[r]? = some p ∧ t ≤ p.fr.length ∧ s ∈ kept neg p t ∧ x = gnum P neg r p t s := by
  obtain ⟨g, row, k, hg, hk, rfl⟩ := flatten_pos _ x hx
  obtain ⟨r, l, t, hl, ht, rfl⟩ := state_pos _ g (List.getElem?_eq_some_iff.mp hg).1
  have hr : r < P.length := by have := (List.getElem?_eq_some_iff.mp hl).1; simpa [KK] using this
  have hp := List.getElem?_eq_getElem hr
  rw [KK_get P neg r _ hp] at hl
  obtain rfl := Option.some.inj hl
  rw [kstAll_length] at ht
  rw [KK_state P neg r _ hp t (by omega)] at hg
  obtain rfl := Option.some.inj hg
  refine ⟨r, P[r], t, (kept neg P[r] t)[k], hp, by omega, List.getElem_mem _, ?_⟩
  rw [gnum_eq P neg r _ hp t _ (by omega), List.Nodup.idxOf_getElem (show (kept neg P[r] t).Nodup from kst_nodup _ _ _ t)]
  unfold apos
  rw [← splits_eq_take]

/-- Two lists of values of the states that are kept are equal if they agree at each state. -/
theorem nest3_ext {X : Type} (P : List (Job S)) (neg : S) (val : Nat → Job S → Nat → Nat → X) (l : List X)
    (hl : l.length = (KK P neg).flatten.flatten.length)
    (h : ∀ r p t s, P[r]? = some p → t ≤ p.fr.length → s ∈ kept neg p t →
      l[gnum P neg r p t s]? = some (val r p t s)) : l = (nest3 P neg val).flatten.flatten := by
  apply List.ext_getElem?
  intro x
  by_cases hx : x < (KK P neg).flatten.flatten.length
  · obtain ⟨r, p, t, s, hp, ht, hs, rfl⟩ := gnum_surj P neg x hx
    rw [h r p t s hp ht hs, nest3_get P neg val r p hp t s ht hs]
  · rw [List.getElem?_eq_none (by omega), List.getElem?_eq_none (by rw [nest3_length]; omega)]

/-! ## Numbers of the states -/

theorem rank_flatten (L : List (List Bool)) (i k : Nat) (row : List Bool) (h : L[i]? = some row)
    (hk : k ≤ row.length) :
    rank L.flatten (splits L i + k) = ((L.take i).flatten.filter id).length + rank row k := by
  induction L generalizing i with
  | nil => simp at h
  | cons a L ih =>
    cases i with
    | zero =>
      obtain rfl : a = row := by simpa using h
      rw [splits_zero, Nat.zero_add, List.flatten_cons, rank_append_lt _ _ _ hk]; simp
    | succ i =>
      rw [splits_cons_succ, Nat.add_assoc, List.flatten_cons, rank_append, ih i (by simpa using h),
        List.take_succ_cons, List.flatten_cons, List.filter_append, List.length_append]
      omega

theorem idxOf_filter (n : Nat) (g : Nat → Bool) (s : Nat) (hs : s < n) (h : g s = true) :
    ((List.range n).filter g).idxOf s = ((List.range s).filter g).length := by
  obtain ⟨m, rfl⟩ := Nat.exists_eq_add_of_lt hs
  rw [show s + m + 1 = s + (1 + m) by omega, List.range_add, List.filter_append, List.idxOf_append_of_notMem (by simp),
    List.range_add]
  simp [h]

theorem rank_range (n s : Nat) (g : Nat → Bool) (hs : s ≤ n) :
    rank ((List.range n).map g) s = ((List.range s).filter g).length := by
  obtain ⟨m, rfl⟩ := Nat.exists_eq_add_of_le hs
  rw [List.range_add, List.map_append, rank_append_lt _ _ _ (by simp)]
  have h1 := sel_length ((List.range s).map g) (List.range s) (by simp)
  rw [sel_filter] at h1
  rw [h1]; simp

theorem count_grid (m : Nat) (neg : S) (p : Job S) (hm : m ≤ p.fr.length + 1) :
    (((List.range m).map (fun t => (List.range p.f.length).map (keepFlag neg p t))).flatten.filter id).length =
      splits (kstAll p.f p.fr (cutOf p.f p.fr neg)) m := by
  induction m with
  | zero => simp
  | succ m ih =>
    rw [List.range_succ, List.map_append, List.flatten_append, List.filter_append, List.length_append,
      ih (by omega), splits_succ _ m _ (kstAll_get _ _ _ m (by omega))]
    have e : keepFlag neg p m = stFlag p.f p.fr (cutOf p.f p.fr neg) m := by
      funext s; simp [keepFlag, show m ≤ p.fr.length by omega]
    simp only [List.map_cons, List.map_nil, List.flatten_cons, List.flatten_nil, List.append_nil, e]
    rw [List.filter_map, List.length_map]; rfl

theorem count_all (P : List (Job S)) (T : Nat) (neg : S) (hT : ∀ p ∈ P, p.fr.length ≤ T) (r : Nat)
    (hr : r ≤ P.length) :
    (((P.mapIdx (fun _ p => grid T p.f.length (keepFlag neg p))).take r).flatten.filter id).length =
      ko P neg r := by
  induction r with
  | zero => simp [ko]
  | succ r ih =>
    have hp := List.getElem?_eq_getElem (show r < P.length by omega)
    have h1 : (P.mapIdx (fun _ p => grid T p.f.length (keepFlag neg p)))[r]? =
        some (grid T P[r].f.length (keepFlag neg P[r])) := by rw [List.getElem?_mapIdx, hp]; rfl
    rw [List.take_add_one, h1, List.flatten_append, List.filter_append, List.length_append, ih (by omega), ko, ko,
      splits_succ _ r (kstAll P[r].f P[r].fr (cutOf P[r].f P[r].fr neg)).flatten (by
        rw [List.getElem?_map, KK_get P neg r _ hp]; rfl)]
    congr 1
    have h2 := sel_gridOne T neg P[r] (hT _ (List.getElem_mem _)) (fun _ s => s)
    have h3 := sel_length_filter (grid T P[r].f.length (keepFlag neg P[r])) (grid T P[r].f.length (fun _ s => s))
      (by rw [grid_length, grid_length])
    rw [h2] at h3
    simp only [Option.toList_some, List.flatten_cons, List.flatten_nil, List.append_nil]
    rw [← h3]
    simp [kstAll, kept]

/-- The number of a kept state. -/
theorem rank_flags (P : List (Job S)) (T : Nat) (neg : S) (hT : ∀ p ∈ P, p.fr.length ≤ T) (r : Nat) (p : Job S)
    (hp : P[r]? = some p) (t s : Nat) (ht : t ≤ p.fr.length) (hs : s ∈ kept neg p t) :
    rank (allFlags P T neg) ((T + 1) * so P r + t * p.f.length + s) = gnum P neg r p t s := by
  have hm := hT p (List.mem_of_getElem? hp)
  have hrl := (List.getElem?_eq_some_iff.mp hp).1
  have hsl : s < p.f.length := ((mem_kst _ _ _ _ _).mp hs).1
  have h1 := rank_flatten (P.mapIdx (fun _ p => grid T p.f.length (keepFlag neg p))) r (t * p.f.length + s)
    (grid T p.f.length (keepFlag neg p)) (by rw [List.getElem?_mapIdx, hp]; rfl) (by
      rw [grid_length]; exact le_of_lt (grid_lt _ _ _ _ (by omega) hsl))
  rw [grid_splits P T _ r (by omega), count_all P T neg hT r (by omega), ← Nat.add_assoc] at h1
  have h2 := rank_flatten ((List.range (T + 1)).map (fun t => (List.range p.f.length).map (keepFlag neg p t))) t s
    ((List.range p.f.length).map (keepFlag neg p t))
    (by rw [List.getElem?_map, List.getElem?_range (by omega)]; rfl) (by simpa using le_of_lt hsl)
  rw [rows_splits _ _ _ _ (by omega), ← List.map_take, List.take_range, Nat.min_eq_left (by omega),
    count_grid t neg p (by omega), rank_range _ _ _ (le_of_lt hsl)] at h2
  have e : keepFlag neg p t = stFlag p.f p.fr (cutOf p.f p.fr neg) t := by
    funext s; simp [keepFlag, ht]
  have hfl : stFlag p.f p.fr (cutOf p.f p.fr neg) t s = true := (List.mem_filter.mp hs).2
  rw [allFlags, allGrid, h1, grid, h2, gnum, num, kst, idxOf_filter _ _ _ hsl hfl, e]

end Verif.Fsa.Dn
