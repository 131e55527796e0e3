import Verif.Fsa.Dense.Invert
import Verif.Fsa.Vec.Lemmas
import Verif.Fsa.Scores.Vec
import Verif.Ragged.CatProps
import Verif.Ragged.RangeProps
import Mathlib.Data.List.Sort

/-!
# What the constructor of `IntersectDense` sets up
-/

namespace Verif.Fsa.Dn
open Verif.Ragged Verif.Util Verif.Fsa.Sco
variable {S : Type}

/-- An FSA, the frames it is intersected with and the place of the first frame in the memory. -/
structure Job (S : Type) where
  f : List (List (Arc S))
  fr : List (List S)
  base : Nat

/-- The FSAs. -/
def fsasOf (P : List (Job S)) : List (List (List (Arc S))) := P.map Job.f

/-- The number of states before FSA `r`. -/
def so (P : List (Job S)) (r : Nat) : Nat := off (fsasOf P) r

/-- The number of arcs before FSA `r`. -/
def ao (P : List (Job S)) (r : Nat) : Nat := splits (P.map (fun p => p.f.flatten)) r

/-- The entering arcs of each state. -/
def bk (f : List (List (Arc S))) : List (List Nat) := buckets (f.flatten.map Arc.dst) f.length

/-- The number of FSAs with at least `t` frames. -/
def numAt (P : List (Job S)) (t : Nat) : Nat := countGt (P.map (fun p => p.fr.length + 1)) t

/-- The lengths of the rows of `combined_shape` for the first `k` FSAs. -/
def rowLens (P : List (Job S)) (k : Nat) : List Nat :=
  ((P.take k).map (fun p => p.f.map List.length ++ (bk p.f).map List.length)).flatten

/-- The input of `IntersectDense`. -/
structure InpOk (P : List (Job S)) (b : Dense S) (map : List Nat) : Prop where
  pos : 0 < P.length
  ok : ∀ p ∈ P, RowsOk p.f
  states : ∀ p ∈ P, p.f.length < 65536
  fsas : P.length ≤ 65536
  labels : ∀ p ∈ P, ∀ a ∈ p.f.flatten, 0 ≤ a.label + 1 ∧ a.label + 1 < 65536 ∧ (a.label + 1).toNat < b.cols
  frames : ∀ p ∈ P, p.fr.length < 65536
  mapLen : map.length = P.length
  map : ∀ (r : Nat) (p : Job S), P[r]? = some p → ∃ u x, map[r]? = some u ∧ b.splits[u]? = some x ∧
    b.splits[u + 1]? = some (x + p.fr.length) ∧ p.base = x * b.stride
  bSorted : (b.splits.zipWith (fun x y => y - x) b.splits.tail).Pairwise (· ≥ ·)
  sorted : (P.map (fun p => p.fr.length)).Pairwise (· ≥ ·)
  cols : ∀ p ∈ P, ∀ row ∈ p.fr, row.length = b.cols
  mem : ∀ p ∈ P, ∀ (t : Nat) (row : List S) (c : Nat) (x : S), p.fr[t]? = some row → row[c]? = some x →
    b.mem[p.base + b.stride * t + c]? = some x

/-- What the constructor computes. -/
structure InitOk (P : List (Job S)) (d : DenseInit S) : Prop where
  carcs : ∀ (r : Nat) (p : Job S) (a : Nat) (x : Arc S), P[r]? = some p → p.f.flatten[a]? = some x →
    d.carcs[ao P r + a]? = some ⟨x.src, x.dst, (x.label + 1).toNat, r,
      2 * ao P r + p.f.flatten.length + (bk p.f).flatten.idxOf a, x.score⟩
  infos : d.infos = P.mapIdx (fun r p => ⟨p.fr.length, p.f.length, p.base, so P r, ao P r⟩)
  T : d.T = (P.map (fun p => p.fr.length)).headD 0
  steps : d.steps = (List.range (d.T + 1)).map (fun t =>
    (numAt P t, psum (rowLens P (numAt P t)), 2 * ao P (numAt P t)))

/-! ## Positions -/

theorem take_off {X : Type} (T : List (List (List X))) (r : Nat) :
    T.flatten.take (off T r) = (T.take r).flatten := by
  induction T generalizing r with
  | nil => simp
  | cons f T ih =>
    cases r with
    | zero => simp [off]
    | succ r =>
      have h : off (f :: T) (r + 1) = f.length + off T r := by simp [off]
      rw [h, List.flatten_cons, List.take_length_add_append, ih, List.take_succ_cons, List.flatten_cons]

theorem apos_off {X : Type} (T : List (List (List X))) (r : Nat) :
    apos T (off T r) = splits (T.map List.flatten) r := by
  unfold apos splits
  rw [← List.map_take, take_off, ← List.map_take, List.map_map]
  generalize T.take r = U
  induction U with
  | nil => rfl
  | cons f U ih =>
    rw [List.flatten_cons, List.map_append, List.sum_append, List.map_cons, List.sum_cons, ih,
      Function.comp_apply, List.length_flatten]

theorem apos_add {X : Type} (T : List (List (List X))) (r s : Nat) (f : List (List X)) (hf : T[r]? = some f)
    (hs : s ≤ f.length) : apos T (off T r + s) = splits (T.map List.flatten) r + splits f s := by
  induction s with
  | zero => rw [Nat.add_zero, apos_off, splits_zero, Nat.add_zero]
  | succ s ih =>
    have hrow := List.getElem?_eq_getElem (show s < f.length by omega)
    have hg := state_at T r s f hf (by omega)
    rw [hrow] at hg
    rw [← Nat.add_assoc, apos_succ T _ _ hg, ih (by omega), splits_succ f s _ hrow, Nat.add_assoc]

theorem fsas_get (P : List (Job S)) (r : Nat) (p : Job S) (h : P[r]? = some p) :
    (fsasOf P)[r]? = some p.f := by
  rw [fsasOf, List.getElem?_map, h]; rfl

theorem ao_eq (P : List (Job S)) (r : Nat) : ao P r = apos (fsasOf P) (so P r) := by
  rw [so, apos_off, ao, fsasOf, List.map_map]; rfl

theorem ao_succ (P : List (Job S)) (r : Nat) (p : Job S) (h : P[r]? = some p) :
    ao P (r + 1) = ao P r + p.f.flatten.length := by
  rw [ao, splits_succ _ r p.f.flatten (by rw [List.getElem?_map, h]; rfl)]; rfl

theorem so_succ (P : List (Job S)) (r : Nat) (p : Job S) (h : P[r]? = some p) :
    so P (r + 1) = so P r + p.f.length := off_succ _ _ _ (fsas_get P r p h)

theorem arcs_flatten (P : List (Job S)) :
    (fsasOf P).flatten.flatten = (P.map (fun p => p.f.flatten)).flatten := by
  unfold fsasOf
  induction P with
  | nil => rfl
  | cons p P ih => simp only [List.map_cons, List.flatten_cons, List.flatten_append, ih]

theorem arc_get (P : List (Job S)) (r : Nat) (p : Job S) (h : P[r]? = some p) (a : Nat)
    (ha : a < p.f.flatten.length) : (flat (fsasOf P)).arcs[ao P r + a]? = p.f.flatten[a]? := by
  change (fsasOf P).flatten.flatten[_]? = _
  rw [arcs_flatten]
  exact flatten_get _ r _ (by rw [List.getElem?_map, h]; rfl) a ha

theorem arcs_length (P : List (Job S)) : (flat (fsasOf P)).arcs.length = ao P P.length := by
  change (fsasOf P).flatten.flatten.length = _
  rw [arcs_flatten, ao, ← splits_length, List.length_map]

theorem arc_split (P : List (Job S)) (i : Nat) (h : i < ao P P.length) :
    ∃ r p a, P[r]? = some p ∧ a < p.f.flatten.length ∧ i = ao P r + a := by
  have e : ao P P.length = (P.map (fun p => p.f.flatten)).flatten.length := by
    rw [ao, ← splits_length, List.length_map]
  rw [e] at h
  obtain ⟨r, l, a, hr, ha, rfl⟩ := flatten_pos _ i h
  rw [List.getElem?_map, Option.map_eq_some_iff] at hr
  obtain ⟨p, hp, rfl⟩ := hr
  exact ⟨r, p, a, hp, ha, rfl⟩

/-- The state of an arc. -/
theorem arc_state (P : List (Job S)) (r : Nat) (p : Job S) (h : P[r]? = some p) (hf : RowsOk p.f) (a : Nat)
    (x : Arc S) (ha : p.f.flatten[a]? = some x) : x.src < p.f.length ∧ x.dst < p.f.length ∧
      ∃ row k, p.f[x.src]? = some row ∧ row[k]? = some x ∧
        ao P r + a = apos (fsasOf P) (so P r + x.src) + k := by
  obtain ⟨s, row, k, hs, hk, rfl⟩ := flatten_pos p.f a (List.getElem?_eq_some_iff.mp ha).1
  rw [flatten_get p.f s row hs k hk] at ha
  obtain ⟨h1, h2⟩ := hf s row hs x (List.mem_of_getElem? ha)
  have hsl := (List.getElem?_eq_some_iff.mp hs).1
  subst h1
  refine ⟨hsl, h2, row, k, hs, ha, ?_⟩
  rw [so, apos_add _ r _ p.f (fsas_get P r p h) (by omega), ao, fsasOf, List.map_map, Nat.add_assoc]
  rfl

theorem arc_id2 (P : List (Job S)) (r : Nat) (p : Job S) (h : P[r]? = some p) (hf : RowsOk p.f) (a : Nat)
    (x : Arc S) (ha : p.f.flatten[a]? = some x) :
    (flat (fsasOf P)).id2[ao P r + a]? = some (so P r + x.src) := by
  obtain ⟨h1, -, row, k, h2, h3, h4⟩ := arc_state P r p h hf a x ha
  have hg := state_at (fsasOf P) r x.src p.f (fsas_get P r p h) h1
  rw [h2] at hg
  rw [h4]
  exact flat_id2 _ _ k row hg (List.getElem?_eq_some_iff.mp h3).1

theorem so_le (P : List (Job S)) (r : Nat) (p : Job S) (h : P[r]? = some p) :
    so P r + p.f.length ≤ (fsasOf P).flatten.length := by
  rw [← so_succ P r p h, so, off, ← List.map_take]
  exact splits_le _ _

/-! ## Entering arcs -/

theorem positions_sorted (vs : List Nat) (c : Nat) : (positions vs 0 c).Pairwise (· < ·) := by
  unfold positions
  rw [List.pairwise_map]
  refine List.Pairwise.filter _ ?_
  have h : ((vs.zipIdx 0).map Prod.snd).Pairwise (· < ·) := by
    rw [List.zipIdx_map_snd]; exact List.pairwise_lt_range'
  rw [List.pairwise_map] at h
  exact h

theorem buckets_mem (dest : List Nat) (n j : Nat) (h : ∀ v ∈ dest, v < n) :
    j ∈ (buckets dest n).flatten ↔ j < dest.length := by
  rw [List.mem_flatten]
  constructor
  · rintro ⟨l, hl, hj⟩
    obtain ⟨c, -, rfl⟩ := List.mem_map.mp hl
    exact (List.getElem?_eq_some_iff.mp ((positions_mem dest c j).mp hj)).1
  · intro hj
    have hx := List.getElem?_eq_getElem hj
    exact ⟨positions dest 0 dest[j], List.mem_map.mpr ⟨dest[j], by simpa using h _ (List.getElem_mem hj), rfl⟩,
      (positions_mem dest _ j).mpr hx⟩

theorem buckets_nodup (dest : List Nat) (n : Nat) : (buckets dest n).flatten.Nodup := by
  rw [List.nodup_flatten]
  constructor
  · intro l hl
    obtain ⟨c, -, rfl⟩ := List.mem_map.mp hl
    exact (positions_sorted dest c).imp (fun h => by omega)
  · unfold buckets
    rw [List.pairwise_map]
    refine List.Pairwise.imp ?_ List.pairwise_lt_range
    intro c c' hc j hj hj'
    have h1 := (positions_mem dest c j).mp hj
    have h2 := (positions_mem dest c' j).mp hj'
    rw [h1] at h2
    have := Option.some.inj h2
    omega

theorem buckets_perm (dest : List Nat) (n : Nat) (h : ∀ v ∈ dest, v < n) :
    (buckets dest n).flatten.Perm (List.range dest.length) := by
  rw [List.perm_ext_iff_of_nodup (buckets_nodup dest n) List.nodup_range]
  intro j
  rw [buckets_mem dest n j h, List.mem_range]

theorem dst_lt (f : List (List (Arc S))) (hf : RowsOk f) : ∀ v ∈ f.flatten.map Arc.dst, v < f.length := by
  intro v hv
  obtain ⟨a, ha, rfl⟩ := List.mem_map.mp hv
  obtain ⟨row, hr, har⟩ := List.mem_flatten.mp ha
  obtain ⟨s, hs⟩ := List.mem_iff_getElem?.mp hr
  exact (hf s row hs a har).2

theorem bk_perm (f : List (List (Arc S))) (hf : RowsOk f) :
    (bk f).flatten.Perm (List.range f.flatten.length) := by
  have := buckets_perm (f.flatten.map Arc.dst) f.length (dst_lt f hf)
  rwa [List.length_map] at this

theorem bk_length (f : List (List (Arc S))) : (bk f).length = f.length := by simp [bk, buckets]

/-- The destination states of all arcs. -/
theorem dest_all (P : List (Job S)) (hP : ∀ p ∈ P, RowsOk p.f) :
    ∃ dest, destStates (flat (fsasOf P)) = some dest ∧ dest.length = ao P P.length ∧
      (∀ (r : Nat) (p : Job S) (a : Nat) (x : Arc S), P[r]? = some p → p.f.flatten[a]? = some x →
        dest[ao P r + a]? = some (so P r + x.dst)) ∧ ∀ v ∈ dest, v < (fsasOf P).flatten.length := by
  obtain ⟨dest, h1, h2, h3⟩ := destStates_spec (fsasOf P) (by
    intro f hf
    obtain ⟨p, hp, rfl⟩ := List.mem_map.mp hf
    exact hP p hp)
  have hl : dest.length = ao P P.length := by rw [h2, ← arcs_length]; rfl
  have hg : ∀ (r : Nat) (p : Job S) (a : Nat) (x : Arc S), P[r]? = some p → p.f.flatten[a]? = some x →
        dest[ao P r + a]? = some (so P r + x.dst) := by
    intro r p a x hp ha
    obtain ⟨-, -, row, k, g1, g2, g3⟩ := arc_state P r p hp (hP p (List.mem_of_getElem? hp)) a x ha
    rw [g3]
    exact h3 r p.f x.src row k x (fsas_get P r p hp) g1 g2
  refine ⟨dest, h1, hl, hg, ?_⟩
  intro v hv
  obtain ⟨i, hi⟩ := List.mem_iff_getElem?.mp hv
  have hil := (List.getElem?_eq_some_iff.mp hi).1
  obtain ⟨r, p, a, hp, ha, rfl⟩ := arc_split P i (by omega)
  have hx := List.getElem?_eq_getElem ha
  rw [hg r p a _ hp hx] at hi
  obtain rfl := Option.some.inj hi
  have := (arc_state P r p hp (hP p (List.mem_of_getElem? hp)) a _ hx).2.1
  have := so_le P r p hp
  omega

/-- The entering arcs of all states. -/
theorem buckets_all (P : List (Job S)) (hP : ∀ p ∈ P, RowsOk p.f) (dest : List Nat)
    (hl : dest.length = ao P P.length)
    (hg : ∀ (r : Nat) (p : Job S) (a : Nat) (x : Arc S), P[r]? = some p → p.f.flatten[a]? = some x →
        dest[ao P r + a]? = some (so P r + x.dst)) :
    buckets dest (fsasOf P).flatten.length =
      (P.mapIdx (fun r p => (bk p.f).map (fun l => l.map (ao P r + ·)))).flatten := by
  set Q := P.mapIdx (fun r p => (bk p.f).map (fun l => l.map (ao P r + ·))) with hQ
  have hQl : Q.map List.length = (fsasOf P).map List.length := by
    rw [hQ, fsasOf, List.map_map]
    apply List.ext_getElem?
    intro r
    rw [List.getElem?_map, List.getElem?_mapIdx, List.getElem?_map, Option.map_map]
    congr 1
    funext p
    simp [bk_length]
  apply List.ext_getElem?
  intro g
  by_cases h : g < (fsasOf P).flatten.length
  · obtain ⟨r, f, s, hf, hs, rfl⟩ := state_pos (fsasOf P) g h
    rw [fsasOf, List.getElem?_map, Option.map_eq_some_iff] at hf
    obtain ⟨p, hp, rfl⟩ := hf
    have hQr : Q[r]? = some ((bk p.f).map (fun l => l.map (ao P r + ·))) := by
      rw [hQ, List.getElem?_mapIdx, hp]; rfl
    have e : off (fsasOf P) r = splits Q r := by rw [off, ← hQl, splits, List.map_take]
    have hb : s < (bk p.f).length := by rw [bk_length]; exact hs
    rw [buckets_get dest _ _ h]
    rw [e, flatten_get Q r _ hQr s (by simpa using hb), List.getElem?_map]
    have hbs : (bk p.f)[s]? = some (positions (p.f.flatten.map Arc.dst) 0 s) := buckets_get _ _ _ hs
    rw [hbs, Option.map_some, ← e]
    congr 1
    apply List.Pairwise.eq_of_mem_iff (r := (· < ·)) (positions_sorted _ _)
    · rw [List.pairwise_map]
      exact (positions_sorted _ _).imp (fun h => by omega)
    · intro j
      rw [positions_mem, List.mem_map]
      constructor
      · intro hj
        have hjl := (List.getElem?_eq_some_iff.mp hj).1
        obtain ⟨r', p', a, hp', ha, rfl⟩ := arc_split P j (by omega)
        have hx := List.getElem?_eq_getElem ha
        rw [hg r' p' a _ hp' hx] at hj
        have hd := (arc_state P r' p' hp' (hP p' (List.mem_of_getElem? hp')) a _ hx).2.1
        obtain ⟨rfl, rfl⟩ := off_inj (fsasOf P) r' r _ s p'.f p.f (fsas_get P r' p' hp') (fsas_get P r p hp)
          hd hs (Option.some.inj hj)
        rw [hp] at hp'
        obtain rfl := Option.some.inj hp'
        exact ⟨a, (positions_mem _ _ _).mpr (by rw [List.getElem?_map, hx]; rfl), rfl⟩
      · rintro ⟨a, ha, rfl⟩
        have := (positions_mem _ _ _).mp ha
        rw [List.getElem?_map, Option.map_eq_some_iff] at this
        obtain ⟨x, hx, rfl⟩ := this
        exact hg r p a x hp hx
  · have : Q.flatten.length = (fsasOf P).flatten.length := by
      rw [List.length_flatten, List.length_flatten, hQl]
    rw [List.getElem?_eq_none (by simpa [buckets] using h), List.getElem?_eq_none (by omega)]

/-- The position of an arc among the entering arcs. -/
theorem order_idx (P : List (Job S)) (hP : ∀ p ∈ P, RowsOk p.f) (dest : List Nat)
    (hl : dest.length = ao P P.length)
    (hg : ∀ (r : Nat) (p : Job S) (a : Nat) (x : Arc S), P[r]? = some p → p.f.flatten[a]? = some x →
        dest[ao P r + a]? = some (so P r + x.dst)) (r : Nat) (p : Job S) (hp : P[r]? = some p) (a : Nat)
    (ha : a < p.f.flatten.length) :
    (buckets dest (fsasOf P).flatten.length).flatten.idxOf (ao P r + a) =
      ao P r + (bk p.f).flatten.idxOf a := by
  have hnd := buckets_nodup dest (fsasOf P).flatten.length
  rw [buckets_all P hP dest hl hg] at hnd ⊢
  have e : (P.mapIdx (fun r p => (bk p.f).map (fun l => l.map (ao P r + ·)))).flatten.flatten =
      (P.mapIdx (fun r p => (bk p.f).flatten.map (ao P r + ·))).flatten := by
    rw [List.flatten_flatten]
    congr 1
    apply List.ext_getElem?
    intro r
    rw [List.getElem?_map, List.getElem?_mapIdx, List.getElem?_mapIdx, Option.map_map]
    congr 1
    funext p
    rw [Function.comp_apply, ← List.map_flatten]
  rw [e] at hnd ⊢
  have hperm := bk_perm p.f (hP p (List.mem_of_getElem? hp))
  have hmem : a ∈ (bk p.f).flatten := hperm.mem_iff.mpr (by simpa using ha)
  have hk := List.idxOf_lt_length_of_mem hmem
  set k := (bk p.f).flatten.idxOf a with hkd
  have hsp : splits (P.mapIdx (fun r p => (bk p.f).flatten.map (ao P r + ·))) r = ao P r := by
    unfold splits ao splits
    rw [List.map_take, List.map_take]
    congr 2
    apply List.ext_getElem?
    intro r'
    rw [List.getElem?_map, List.getElem?_mapIdx, List.getElem?_map, List.getElem?_map, Option.map_map]
    cases h : P[r']? with
    | none => rfl
    | some q =>
      have := (bk_perm q.f (hP q (List.mem_of_getElem? h))).length_eq
      simp only [Option.map_some, Function.comp_apply, List.length_map, this, List.length_range]
  have hget := flatten_get (P.mapIdx (fun r p => (bk p.f).flatten.map (ao P r + ·))) r
    ((bk p.f).flatten.map (ao P r + ·)) (by rw [List.getElem?_mapIdx, hp]; rfl) k (by rw [List.length_map]; exact hk)
  rw [hsp, List.getElem?_map, List.getElem?_eq_getElem hk, List.getElem_idxOf hk, Option.map_some] at hget
  obtain ⟨hlt, hget⟩ := List.getElem?_eq_some_iff.mp hget
  rw [← hget, List.Nodup.idxOf_getElem hnd]

/-! ## The constructor -/

theorem u16_of (n : Int) (h0 : 0 ≤ n) (h : n < 65536) : u16 n = n.toNat := by
  unfold u16; rw [Int.emod_eq_of_lt h0 h]

theorem u16_nat (n : Nat) (h : n < 65536) : u16 (n : Int) = n := by
  rw [u16_of _ (by omega) (by omega)]; omega

theorem compressArc_eq (P : List (Job S)) (b : Dense S) (map : List Nat) (hP : InpOk P b map) (inv : List Nat)
    (r : Nat) (p : Job S) (a : Nat) (x : Arc S) (hp : P[r]? = some p) (ha : p.f.flatten[a]? = some x) (k : Nat)
    (hinv : inv[ao P r + a]? = some (ao P r + k)) :
    compressArc (flat (fsasOf P)) inv (ao P r + a) =
      some ⟨x.src, x.dst, (x.label + 1).toNat, r, 2 * ao P r + p.f.flatten.length + k, x.score⟩ := by
  have hmem := List.mem_of_getElem? hp
  have hrl := (List.getElem?_eq_some_iff.mp hp).1
  have hf := hP.ok p hmem
  have hst := hP.states p hmem
  have hlab := hP.labels p hmem x (List.mem_of_getElem? ha)
  have hfs := hP.fsas
  obtain ⟨h1, h2, -⟩ := arc_state P r p hp hf a x ha
  have e1 := arc_get P r p hp a (List.getElem?_eq_some_iff.mp ha).1
  rw [ha] at e1
  have e2 := arc_id2 P r p hp hf a x ha
  have e3 : (flat (fsasOf P)).id1[so P r + x.src]? = some r := flat_id1 _ r x.src p.f (fsas_get P r p hp) h1
  have e4 : (flat (fsasOf P)).sp1[r]? = some (so P r) := flat_sp1 _ r (by simp [fsasOf]; omega)
  have e5 : (flat (fsasOf P)).sp1[r + 1]? = some (so P (r + 1)) := flat_sp1 _ (r + 1) (by simp [fsasOf]; omega)
  have hso := so_le P r p hp
  have e6 : (flat (fsasOf P)).sp2[so P r]? = some (ao P r) := by
    rw [ao_eq]; exact flat_sp2 _ _ (by omega)
  have e7 : (flat (fsasOf P)).sp2[so P (r + 1)]? = some (ao P (r + 1)) := by
    rw [ao_eq]; exact flat_sp2 _ _ (by rw [so_succ P r p hp]; omega)
  have hu := u16_nat r (by omega)
  unfold compressArc
  simp only [e1, e2, e3, hu, e4, e5, e6, e7, hinv, Option.bind_eq_bind, Option.bind_some]
  rw [u16_nat x.src (by omega), u16_nat x.dst (by omega), u16_of _ hlab.1 hlab.2.1, ao_succ P r p hp]
  congr 2
  omega

theorem fsaInfo_eq (P : List (Job S)) (b : Dense S) (map : List Nat) (hP : InpOk P b map)
    (r : Nat) (p : Job S) (hp : P[r]? = some p) :
    fsaInfo (flat (fsasOf P)) b map r = some ⟨p.fr.length, p.f.length, p.base, so P r, ao P r⟩ := by
  have hmem := List.mem_of_getElem? hp
  have hrl := (List.getElem?_eq_some_iff.mp hp).1
  obtain ⟨u, x, h1, h2, h3, h4⟩ := hP.map r p hp
  have e4 : (flat (fsasOf P)).sp1[r]? = some (so P r) := flat_sp1 _ r (by simp [fsasOf]; omega)
  have e5 : (flat (fsasOf P)).sp1[r + 1]? = some (so P (r + 1)) := flat_sp1 _ (r + 1) (by simp [fsasOf]; omega)
  have hso := so_le P r p hp
  have e6 : (flat (fsasOf P)).sp2[so P r]? = some (ao P r) := by
    rw [ao_eq]; exact flat_sp2 _ _ (by omega)
  unfold fsaInfo
  simp only [h1, h2, h3, e4, e5, e6, Option.bind_eq_bind, Option.bind_some]
  have g1 : u16 (((x + p.fr.length : Nat) : Int) - x) = p.fr.length := by
    rw [show ((x + p.fr.length : Nat) : Int) - x = (p.fr.length : Int) by omega]
    exact u16_nat _ (hP.frames p hmem)
  have g2 : u16 (((so P (r + 1) : Nat) : Int) - so P r) = p.f.length := by
    rw [so_succ P r p hp, show ((so P r + p.f.length : Nat) : Int) - so P r = (p.f.length : Int) by omega]
    exact u16_nat _ (hP.states p hmem)
  rw [g1, g2, h4]

theorem numCopies_eq (P : List (Job S)) (b : Dense S) (map : List Nat) (hP : InpOk P b map)
    (r : Nat) (p : Job S) (hp : P[r]? = some p) : numCopies b map r = some (p.fr.length + 1) := by
  obtain ⟨u, x, h1, h2, h3, h4⟩ := hP.map r p hp
  unfold numCopies
  simp only [h1, h2, h3, Option.bind_eq_bind, Option.bind_some]
  congr 1; omega

/-- The shape that all the steps are made from. -/
def combinedNest (P : List (Job S)) : List (List (List Unit)) :=
  P.map (fun p => p.f.map (fun row => row.map (fun _ => ())) ++ (bk p.f).map (fun row => row.map (fun _ => ())))

theorem incomingShape_eq (P : List (Job S)) (hP : ∀ p ∈ P, RowsOk p.f) (dest : List Nat)
    (hd : destStates (flat (fsasOf P)) = some dest) (hl : dest.length = ao P P.length)
    (hg : ∀ (r : Nat) (p : Job S) (a : Nat) (x : Arc S), P[r]? = some p → p.f.flatten[a]? = some x →
        dest[ao P r + a]? = some (so P r + x.dst)) (hlt : ∀ v ∈ dest, v < (fsasOf P).flatten.length) :
    incomingShape (flat (fsasOf P)) = some (fullLayers 2
      (P.map (fun p => (bk p.f).map (fun row => row.map (fun _ => ()))) : List (Nest Unit 2)),
      (buckets dest (fsasOf P).flatten.length).flatten) := by
  have hn : (flat (fsasOf P)).sp2.length - 1 = (fsasOf P).flatten.length := by
    change (psum ((fsasOf P).flatten.map List.length)).length - 1 = _
    rw [psum_length, List.length_map]; omega
  have hga := gather_buckets dest (buckets dest (fsasOf P).flatten.length) 0 (by
    intro c l hc i hi
    have hcl := (List.getElem?_eq_some_iff.mp hc).1
    rw [buckets_get dest _ c (by simpa [buckets] using hcl)] at hc
    obtain rfl := Option.some.inj hc
    rw [Nat.zero_add]
    exact (positions_mem dest c i).mp hi)
  unfold incomingShape
  simp only [hd, hn, incomingArcs_eq dest _ hlt, hga, Option.bind_eq_bind, Option.bind_some]
  have a1 := fullLayers_succ 1 (P.map (fun p => (bk p.f).map (fun row => row.map (fun _ => ()))) :
    List (List (Nest Unit 1)))
  have a2 := fullLayers_succ 0 ((P.map (fun p => (bk p.f).map (fun row => row.map (fun _ => ())))).flatten :
    List (List (Nest Unit 0)))
  have l1 : (P.map (fun p => (bk p.f).map (fun row => row.map (fun _ => ())))).map List.length =
      (fsasOf P).map List.length := by
    rw [fsasOf, List.map_map, List.map_map]
    apply List.map_congr_left
    intro p _
    simp [bk_length]
  have l2 : (P.map (fun p => (bk p.f).map (fun row => row.map (fun _ => ())))).flatten.map List.length =
      (buckets dest (fsasOf P).flatten.length).map List.length := by
    rw [buckets_all P hP dest hl hg, List.map_flatten, List.map_flatten, List.map_map]
    congr 1
    apply List.ext_getElem?
    intro r
    rw [List.getElem?_map, List.getElem?_map, List.getElem?_mapIdx, Option.map_map]
    congr 1
    funext p
    simp
  congr 2
  refine Eq.trans ?_ a1.symm
  rw [List.cons.injEq]
  refine ⟨by rw [l1]; rfl, ?_⟩
  refine Eq.trans ?_ a2.symm
  rw [l2]
  rfl

theorem flat_shape (P : List (Job S)) :
    [((flat (fsasOf P)).sp1, (flat (fsasOf P)).id1), ((flat (fsasOf P)).sp2, (flat (fsasOf P)).id2)] =
      fullLayers 2 (P.map (fun p => p.f.map (fun row => row.map (fun _ => ()))) : List (Nest Unit 2)) := by
  have a1 := fullLayers_succ 1 (P.map (fun p => p.f.map (fun row => row.map (fun _ => ()))) :
    List (List (Nest Unit 1)))
  have a2 := fullLayers_succ 0 ((P.map (fun p => p.f.map (fun row => row.map (fun _ => ())))).flatten :
    List (List (Nest Unit 0)))
  have l1 : (P.map (fun p => p.f.map (fun row => row.map (fun _ => ())))).map List.length =
      (fsasOf P).map List.length := by
    rw [fsasOf, List.map_map, List.map_map]
    apply List.map_congr_left
    intro p _
    simp
  have l2 : (P.map (fun p => p.f.map (fun row => row.map (fun _ => ())))).flatten.map List.length =
      (fsasOf P).flatten.map List.length := by
    rw [fsasOf, List.map_flatten, List.map_flatten, List.map_map, List.map_map]
    congr 1
    apply List.map_congr_left
    intro p _
    simp
  refine Eq.trans ?_ a1.symm
  rw [List.cons.injEq]
  refine ⟨by rw [l1]; rfl, ?_⟩
  refine Eq.trans ?_ a2.symm
  rw [l2]
  rfl

theorem combined_eq (dev : Dev) (debug : Bool) (P : List (Job S)) :
    ∃ mm, catAxis dev debug [fullLayers 2 (P.map (fun p => p.f.map (fun row => row.map (fun _ => ()))) : List (Nest Unit 2)),
      fullLayers 2 (P.map (fun p => (bk p.f).map (fun row => row.map (fun _ => ()))) : List (Nest Unit 2))] 1 =
      some (fullLayers 2 (combinedNest P : List (Nest Unit 2)), mm) := by
  obtain ⟨mm, h1, -⟩ := cat_axis dev debug 1 0
    ([P.map (fun p => p.f.map (fun row => row.map (fun _ => ()))),
      P.map (fun p => (bk p.f).map (fun row => row.map (fun _ => ())))] :
      List (List (Nest (List (Nest Unit 1)) 0))) (by simp) (by
        intro T hT
        rcases List.mem_cons.mp hT with rfl | hT
        · exact rfl
        · rw [List.mem_singleton] at hT
          subst hT
          unfold SameAbove
          simp only [List.headD_cons]
          apply List.ext_getElem
          · simp
          · intro i _ _; rfl)
  refine ⟨mm, ?_⟩
  have hz : (zipAll 0 ([P.map (fun p => p.f.map (fun row => row.map (fun _ => ()))),
      P.map (fun p => (bk p.f).map (fun row => row.map (fun _ => ())))] :
      List (List (Nest (List (Nest Unit 1)) 0)))).map (Nest.map List.flatten 0) = combinedNest P := by
    unfold zipAll
    simp only [List.headD_cons, List.length_map]
    apply List.ext_getElem?
    intro r
    rw [List.getElem?_map, List.getElem?_map, combinedNest, List.getElem?_map]
    unfold swapAxes
    rw [List.getElem?_map]
    by_cases h : r < P.length
    · rw [List.getElem?_range h, List.getElem?_eq_getElem h]
      simp only [Option.map_some]
      simp [Nest.zip, Nest.map, h]
    · rw [List.getElem?_eq_none (by simpa using h), List.getElem?_eq_none (by omega)]
      rfl
  rw [hz] at h1
  have e : ∀ T : List (List (List Unit)), srcShape 1 0 (T : List (Nest (List (Nest Unit 1)) 0)) =
      fullLayers 2 (T : List (Nest Unit 2)) := by
    intro T
    unfold srcShape
    congr 1
    exact List.map_id T
  rw [List.map_cons, List.map_cons, List.map_nil] at h1
  rw [e, e, e] at h1
  exact h1

theorem initStep_eq (P : List (Job S)) (hP : ∀ p ∈ P, RowsOk p.f) (k : Nat) (hk : k ≤ P.length) (h0 : 0 < k) :
    initStep (fullLayers 2 (combinedNest P : List (Nest Unit 2))) k =
      some (k, psum (rowLens P k), 2 * ao P k) := by
  have h1 := prefix_spec 1 (combinedNest P : List (Nest Unit 2)) k
  rw [if_pos (by simpa [combinedNest] using hk)] at h1
  have a1 := fullLayers_succ 1 ((combinedNest P).take k : List (List (Nest Unit 1)))
  have a2 := fullLayers_succ 0 (((combinedNest P).take k).flatten : List (List (Nest Unit 0)))
  have hl : ((combinedNest P).take k).flatten.map List.length = rowLens P k := by
    rw [combinedNest, rowLens, ← List.map_take, List.map_flatten, List.map_map]
    congr 1
    apply List.map_congr_left
    intro p _
    simp only [Function.comp_apply, List.map_append, List.map_map]
    congr 1 <;> (apply List.map_congr_left; intro l _; simp)
  have hsum : (rowLens P k).sum = 2 * ao P k := by
    rw [rowLens, ao, splits, ← List.map_take]
    have hsub : ∀ p ∈ P.take k, RowsOk p.f := fun p hp => hP p (List.mem_of_mem_take hp)
    generalize P.take k = Q at hsub
    induction Q with
    | nil => rfl
    | cons p Q ih =>
      have hb := (bk_perm p.f (hsub p List.mem_cons_self)).length_eq
      rw [List.length_range, List.length_flatten] at hb
      simp only [List.map_cons, List.flatten_cons, List.sum_append, List.sum_cons]
      rw [ih (fun q hq => hsub q (List.mem_cons_of_mem _ hq)), hb, List.length_flatten]
      omega
  unfold initStep
  rw [if_neg (by omega)]
  have h1' : prefixShape (fullLayers 2 (combinedNest P : List (Nest Unit 2))) k =
      some [(psum (((combinedNest P).take k).map List.length), idsFrom 0 (((combinedNest P).take k).map List.length)),
        (psum (rowLens P k), idsFrom 0 (rowLens P k))] := by
    refine h1.trans ?_
    congr 1
    refine a1.trans ?_
    congr 1
    refine a2.trans ?_
    rw [hl]
    rfl
  rw [h1']
  simp only [Option.bind_eq_bind, Option.bind_some, List.getElem?_cons_succ, List.getElem?_cons_zero, totSize,
    if_neg (show ¬ (2 : Nat) = 0 by omega), Nat.add_one_sub_one, Option.map_some, psum_getLastD, hsum]

theorem countGt_pos (src : List Nat) (t : Nat) (h : t < src.headD 0) : 0 < countGt src t := by
  cases src with
  | nil => simp at h
  | cons x src =>
    simp only [List.headD_cons] at h
    simp [countGt, h]

/-- The constructor. -/
theorem denseInit_ok (dev : Dev) (debug : Bool) (P : List (Job S)) (b : Dense S) (map : List Nat)
    (hP : InpOk P b map) :
    ∃ d, denseInit dev debug (flat (fsasOf P)) b map = some d ∧ InitOk P d := by
  obtain ⟨dest, hd1, hd2, hd3, hd4⟩ := dest_all P hP.ok
  have hinc := incomingShape_eq P hP.ok dest hd1 hd2 hd3 hd4
  have hperm := buckets_perm dest _ hd4
  set order := (buckets dest (fsasOf P).flatten.length).flatten with hord
  have hol : order.length = ao P P.length := by rw [hperm.length_eq, List.length_range, hd2]
  have hinv := invertPermutation_eq order (by rw [hol, ← hd2]; exact hperm)
  set inv := (List.range order.length).map (fun i => order.idxOf i) with hinvd
  have hinvg : ∀ (r : Nat) (p : Job S) (a : Nat), P[r]? = some p → a < p.f.flatten.length →
      inv[ao P r + a]? = some (ao P r + (bk p.f).flatten.idxOf a) := by
    intro r p a hp ha
    have hlt : ao P r + a < order.length := by
      have h1 := ao_succ P r p hp
      have h2 : ao P (r + 1) ≤ ao P P.length := splits_mono _ (List.getElem?_eq_some_iff.mp hp).1
      omega
    rw [hinvd, List.getElem?_map, List.getElem?_range hlt, Option.map_some,
      order_idx P hP.ok dest hd2 hd3 r p hp a ha]
  have hcar : ∀ i ∈ List.range (flat (fsasOf P)).arcs.length, ∃ c, compressArc (flat (fsasOf P)) inv i = some c := by
    intro i hi
    rw [List.mem_range, arcs_length] at hi
    obtain ⟨r, p, a, hp, ha, rfl⟩ := arc_split P i hi
    exact ⟨_, compressArc_eq P b map hP inv r p a _ hp (List.getElem?_eq_getElem ha) _ (hinvg r p a hp ha)⟩
  obtain ⟨carcs, hc⟩ := mapM_exists hcar
  obtain ⟨hcl, hcg⟩ := mapM_get hc
  obtain ⟨mm, hcomb⟩ := combined_eq dev debug P
  rw [← flat_shape] at hcomb
  have hinfos : (List.range map.length).mapM (fsaInfo (flat (fsasOf P)) b map) =
      some (P.mapIdx (fun r p => ⟨p.fr.length, p.f.length, p.base, so P r, ao P r⟩)) := by
    apply mapM_some_of
    · simp [hP.mapLen]
    · intro r i hi
      obtain ⟨hlt, rfl⟩ := List.getElem?_eq_some_iff.mp hi
      simp only [List.length_range, hP.mapLen] at hlt
      have hp := List.getElem?_eq_getElem hlt
      rw [List.getElem_range, fsaInfo_eq P b map hP r _ hp, List.getElem?_mapIdx, hp]
      rfl
  have hcop : (List.range map.length).mapM (numCopies b map) = some (P.map (fun p => p.fr.length + 1)) := by
    apply mapM_some_of
    · simp [hP.mapLen]
    · intro r i hi
      obtain ⟨hlt, rfl⟩ := List.getElem?_eq_some_iff.mp hi
      simp only [List.length_range, hP.mapLen] at hlt
      have hp := List.getElem?_eq_getElem hlt
      rw [List.getElem_range, numCopies_eq P b map hP r _ hp, List.getElem?_map, hp]
      rfl
  have hsorted : (P.map (fun p => p.fr.length + 1)).Pairwise (· ≥ ·) := by
    have := hP.sorted
    rw [List.pairwise_map] at this ⊢
    exact this.imp (fun h => by omega)
  have hdec := invertMonotonicDecreasing_eq _ hsorted (by simp)
  have hpos := hP.pos
  have hhead : (P.map (fun p => p.fr.length + 1)).headD 0 = (P.map (fun p => p.fr.length)).headD 0 + 1 := by
    cases P with
    | nil => simp at hpos
    | cons p P => rfl
  have hc0 : (P.map (fun p => p.fr.length + 1))[0]? = some ((P.map (fun p => p.fr.length)).headD 0 + 1) := by
    cases P with
    | nil => simp at hpos
    | cons p P => rfl
  rw [hhead] at hdec
  set T0 := (P.map (fun p => p.fr.length)).headD 0 with hT0
  have hsteps : ((List.range (T0 + 1)).map (countGt (P.map (fun p => p.fr.length + 1)))).mapM
      (initStep (fullLayers 2 (combinedNest P : List (Nest Unit 2)))) =
      some ((List.range (T0 + 1)).map (fun t =>
        (numAt P t, psum (rowLens P (numAt P t)), 2 * ao P (numAt P t)))) := by
    apply mapM_some_of
    · simp
    · intro t k hk
      rw [List.getElem?_map, Option.map_eq_some_iff] at hk
      obtain ⟨t', ht', rfl⟩ := hk
      obtain ⟨hlt, rfl⟩ := List.getElem?_eq_some_iff.mp ht'
      rw [List.length_range] at hlt
      rw [List.getElem_range, List.getElem?_map, List.getElem?_range hlt, Option.map_some]
      refine initStep_eq P hP.ok _ ?_ ?_
      · have := countGt_le (P.map (fun p => p.fr.length + 1)) t
        rwa [List.length_map] at this
      · exact countGt_pos _ _ (by rw [hhead]; exact hlt)
  refine ⟨⟨carcs, P.mapIdx (fun r p => ⟨p.fr.length, p.f.length, p.base, so P r, ao P r⟩), T0,
    (List.range (T0 + 1)).map (fun t => (numAt P t, psum (rowLens P (numAt P t)), 2 * ao P (numAt P t)))⟩,
    ?_, ⟨?_, rfl, rfl, rfl⟩⟩
  · unfold denseInit
    have hmp : (flat (fsasOf P)).sp1.length - 1 = map.length ∧ 0 < map.length := by
      rw [hP.mapLen]
      exact ⟨by simp [flat, psum_length, fsasOf], hpos⟩
    rw [if_pos hmp]
    rw [hinc]
    simp only [hinv, hc, hinfos, hcop, hc0, hdec, Option.bind_eq_bind, Option.bind_some,
      List.length_map, List.length_range, if_pos hP.bSorted, if_true, hcomb, hsteps, Nat.add_sub_cancel]
  · intro r p a x hp ha
    have hal := (List.getElem?_eq_some_iff.mp ha).1
    have hlt : ao P r + a < (flat (fsasOf P)).arcs.length := by
      rw [arcs_length]
      have h1 := ao_succ P r p hp
      have h2 : ao P (r + 1) ≤ ao P P.length := splits_mono _ (List.getElem?_eq_some_iff.mp hp).1
      omega
    rw [hcg (ao P r + a) _ (List.getElem?_range hlt)]
    exact compressArc_eq P b map hP inv r p a x hp ha _ (hinvg r p a hp hal)

end Verif.Fsa.Dn
