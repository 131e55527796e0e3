import Verif.Fsa.Det.Tree

/-!
# `Normalize` and `DetStateToCompact`
-/

namespace Verif.Fsa.Det
variable {W : Type} [AddCommGroup W] [LinearOrder W]

/-- A key: the symbols since the base state, and the base state. -/
abbrev Key := List Int × Nat

/-- `DetStateToCompact` of a key; the code reads the symbols backwards. -/
def ckey (k : Key) : BitVec 64 × BitVec 64 := compact (k.1.reverse, k.2)

/-- `v` is the best score of the paths from `s` to `t` with labels `x`. -/
def Best (f : Fsa W) (s : Nat) (x : List Int) (t : Nat) (v : W) : Prop :=
  (∃ p, Path f.arcs s p t ∧ labels p = x ∧ score p = v) ∧
    ∀ p, Path f.arcs s p t → labels p = x → score p ≤ v

theorem Best.unique {f : Fsa W} {s t : Nat} {x : List Int} {v w : W} (h : Best f s x t v)
    (h2 : Best f s x t w) : v = w := by
  obtain ⟨⟨p, h3, h4, rfl⟩, h5⟩ := h
  obtain ⟨⟨q, h6, h7, rfl⟩, h8⟩ := h2
  exact le_antisymm (h8 p h3 h4) (h5 q h6 h7)

/-- What reading `l` from the states of key `k` to those of key `k'` has to do with paths: the arcs
`js` lead from one base to the other, with the right symbols and the score `w`, and a best path
from the first base can be taken to begin with them. -/
def KStep (f : Fsa W) (k k' : Key) (l : Int) (js : List Nat) (w : W) : Prop :=
  (∃ p, Names f.arcs js p ∧ Path f.arcs k.2 p k'.2 ∧ labels p ++ k'.1 = k.1 ++ [l] ∧ score p = w) ∧
    (∀ t q, Path f.arcs k.2 q t → labels q = k.1 ++ [l] →
      ∃ q', Path f.arcs k'.2 q' t ∧ labels q' = k'.1 ∧ score q ≤ w + score q') ∧
    ∃ t q, Path f.arcs k.2 q t ∧ labels q = k.1 ++ [l]

/-- What is asked of the operation of `SetNormalizer`: `std::max` has these properties, and the
logarithm of the sum of exponentials too. -/
structure PushOk (op : W → W → W) : Prop where
  comm : ∀ a b, op a b = op b a
  assoc : ∀ a b c, op (op a b) c = op a (op b c)
  shift : ∀ a b c, op (a + c) (b + c) = op a b + c

/-- The value that a key contributes to pushing: the total over the states that the symbols lead
to, of the best scores. -/
def PushVal (f : Fsa W) (op : W → W → W) (k : Key) (v : W) : Prop :=
  ∃ e es, ((e :: es).map Prod.fst).Nodup ∧ (∀ x ∈ e :: es, Best f k.2 k.1 x.1 x.2) ∧
    (∀ t p, Path f.arcs k.2 p t → labels p = k.1 → t ∈ ((e :: es).map Prod.fst)) ∧
    v = es.foldl (fun t (x : Nat × W) => op t x.2) e.2

/-- A fold that starts without a value. -/
def foldOpt (op : W → W → W) (acc : Option W) (x : Nat × W) : Option W :=
  match acc with
  | none => some x.2
  | some a => some (op a x.2)

theorem foldOpt_some (op : W → W → W) (es : List (Nat × W)) (a : W) :
    es.foldl (foldOpt op) (some a) = some (es.foldl (fun t (x : Nat × W) => op t x.2) a) := by
  induction es generalizing a with
  | nil => rfl
  | cons e es ih => rw [List.foldl_cons, List.foldl_cons]; exact ih _

theorem PushVal.unique {f : Fsa W} {op : W → W → W} (hop : PushOk op) {k : Key} {v w : W}
    (h : PushVal f op k v) (h2 : PushVal f op k w) : v = w := by
  obtain ⟨e, es, h1, h3, h4, rfl⟩ := h
  obtain ⟨d, ds, h1', h3', h4', rfl⟩ := h2
  have hsub : ∀ (l m : List (Nat × W)), (∀ x ∈ l, Best f k.2 k.1 x.1 x.2) →
      (∀ x ∈ m, Best f k.2 k.1 x.1 x.2) →
      (∀ t p, Path f.arcs k.2 p t → labels p = k.1 → t ∈ m.map Prod.fst) → l ⊆ m := by
    intro l m hl hm hc x hx
    obtain ⟨⟨p, hp, hlab, _⟩, _⟩ := hl x hx
    obtain ⟨y, hy, hxy⟩ := List.mem_map.1 (hc _ p hp hlab)
    have hby := hm y hy
    rw [hxy] at hby
    have : x = y := Prod.ext hxy.symm ((hl x hx).unique hby)
    rw [this]
    exact hy
  have hp : (e :: es).Perm (d :: ds) :=
    (List.perm_ext_iff_of_nodup (List.Nodup.of_map _ h1) (List.Nodup.of_map _ h1')).2 fun x =>
      ⟨fun h => hsub _ _ h3 h3' h4' h, fun h => hsub _ _ h3' h3 h4 h⟩
  have hcomm : RightCommutative (foldOpt op) := by
    constructor
    intro a x y
    cases a with
    | none => simp only [foldOpt]; rw [hop.comm]
    | some a => simp only [foldOpt]; rw [hop.assoc, hop.comm x.2, ← hop.assoc]
  have := hp.foldl_eq (f := foldOpt op) none
  rw [List.foldl_cons, List.foldl_cons] at this
  change es.foldl (foldOpt op) (some e.2) = ds.foldl (foldOpt op) (some d.2) at this
  rw [foldOpt_some, foldOpt_some] at this
  exact Option.some.inj this

theorem foldl_shift {op : W → W → W} (hop : PushOk op) (es : List (Node W)) (a c : W) :
    es.foldl (fun t n => op t n.fwd) a - c =
      (es.map fun n => (n.state, n.fwd - c)).foldl (fun t (x : Nat × W) => op t x.2) (a - c) := by
  induction es generalizing a with
  | nil => rfl
  | cons e es ih =>
    rw [List.foldl_cons, List.map_cons, List.foldl_cons, ih]
    congr 1
    have := hop.shift a e.fwd (-c)
    simpa [sub_eq_add_neg] using this.symm

variable [IsOrderedAddMonoid W]

theorem Good.best {f : Fsa W} {x : List Int} {els : List (Node W)} {len : Nat} {b : Node W}
    (h : Good f x els len b) : ∀ n ∈ els, Best f b.state (rest x len) n.state (n.fwd - b.fwd) := by
  intro n hn
  obtain ⟨p, _, h2, h3, h4, _⟩ := h.elem n hn
  refine ⟨⟨p, h2, h3, by rw [h4]; abel⟩, ?_⟩
  intro q hq hl
  obtain ⟨m, hm, h5, h6⟩ := h.reach q n.state hq hl
  have : m = n := List.inj_on_of_nodup_map h.layer.nodup hm hn h5
  subst this
  exact le_sub_iff_add_le'.2 h6

theorem Good.pushVal {f : Fsa W} {x : List Int} {els : List (Node W)} {len : Nat} {b : Node W}
    (h : Good f x els len b) (o : Orders W) {op : W → W → W} (hop : PushOk op) (nm : W)
    (hn : normalizer o (some op) els = some nm) :
    PushVal f op (rest x len, b.state) (nm - b.fwd) := by
  rw [normalizer] at hn
  rcases he : o.nodes els with _ | ⟨e, es⟩
  · simp [he] at hn
  · simp only [he, Option.some.injEq] at hn
    subst hn
    have hp := o.nodes_perm els
    rw [he] at hp
    have hmap : ((e.state, e.fwd - b.fwd) :: es.map fun n => (n.state, n.fwd - b.fwd)) =
        (e :: es).map fun n => (n.state, n.fwd - b.fwd) := rfl
    refine ⟨(e.state, e.fwd - b.fwd), es.map fun n => (n.state, n.fwd - b.fwd), ?_, ?_, ?_, ?_⟩
    · rw [hmap, List.map_map]
      exact (hp.map Node.state).nodup_iff.2 h.layer.nodup
    · rw [hmap]
      intro y hy
      obtain ⟨n, hn, rfl⟩ := List.mem_map.1 hy
      exact h.best n (hp.mem_iff.1 hn)
    · intro t p hpt hl
      obtain ⟨n, hn, h2, _⟩ := h.reach p t hpt hl
      rw [hmap, List.map_map]
      exact List.mem_map.2 ⟨n, hp.mem_iff.2 hn, h2⟩
    · exact foldl_shift hop es e.fwd b.fwd

omit [IsOrderedAddMonoid W] in
theorem Layer.back_layer {f : Fsa W} {x : List Int} {els : List (Node W)} (h : Layer f x els) :
    ∀ (k : Nat), k ≤ x.length → ∀ n ∈ els, ∃ els0, Layer f (x.take (x.length - k)) els0 ∧
      back k n ∈ els0 := by
  induction h with
  | start =>
    intro k hk n hn
    simp only [List.length_nil, Nat.le_zero] at hk
    subst hk
    exact ⟨_, .start, hn⟩
  | @step x els l els' hl hs ih =>
    intro k hk n hn
    cases k with
    | zero =>
      rw [Nat.sub_zero, List.take_length]
      exact ⟨els', hl.step hs, hn⟩
    | succ k =>
      obtain ⟨p, hp, i, a, ha, hsrc, hlab, rfl⟩ := hs.sound n hn
      simp only [List.length_append, List.length_singleton] at hk
      obtain ⟨els0, h1, h2⟩ := ih k (by omega) p hp
      refine ⟨els0, ?_, h2⟩
      rw [List.take_append_of_le_length (by simp)]
      have : (x ++ [l]).length - (k + 1) = x.length - k := by simp
      rw [this]
      exact h1

omit [IsOrderedAddMonoid W] in
theorem normalizer_some (o : Orders W) (op : Option (W → W → W)) (els : List (Node W)) (h : els ≠ []) :
    ∃ nm, normalizer o op els = some nm := by
  cases op with
  | none => exact ⟨0, rfl⟩
  | some op =>
    rw [normalizer]
    rcases he : o.nodes els with _ | ⟨e, es⟩
    · have := o.nodes_perm els
      rw [he] at this
      exact absurd (List.nil_perm.1 this) h
    · exact ⟨_, rfl⟩

omit [AddCommGroup W] [LinearOrder W] [IsOrderedAddMonoid W] in
theorem drop_split (x : List Int) (m n : Nat) (h : m ≤ n) (hn : n ≤ x.length) :
    (x.take n).drop m ++ x.drop n = x.drop m := by
  have := congrArg (List.drop m) (List.take_append_drop n x)
  rw [List.drop_append_of_le_length (by simp; omega)] at this
  exact this

omit [AddCommGroup W] [LinearOrder W] [IsOrderedAddMonoid W] in
theorem rest_snoc (x : List Int) (l : Int) (len : Nat) :
    rest (x ++ [l]) (len + 1) = rest x len ++ [l] := by
  unfold rest
  rw [List.drop_append_of_le_length (by simp)]
  congr 2
  simp

/-- `Normalize`, `SetNormalizer` and `DetStateToCompact` for the successor by label `l`. -/
theorem normalize_spec (o : Orders W) (op : Option (W → W → W)) {f : Fsa W} {x : List Int}
    {els els' : List (Node W)} {len : Nat} {b : Node W} {l : Int} (hg : Good f x els len b)
    (hs : Succ f els l els') : ∃ nz b', normalize o op (len + 1) els' = some nz ∧
      Good f (x ++ [l]) els' nz.seqLen b' ∧
      KStep f (rest x len, b.state) (rest (x ++ [l]) nz.seqLen, b'.state) l nz.deriv nz.weight ∧
      nz.weight = b'.fwd - b.fwd ∧ normalizer o op els' = some nz.norm ∧
      compactOf o f nz.seqLen els' = some (ckey (rest (x ++ [l]) nz.seqLen, b'.state)) ∧
      ∀ n, els' = [n] → nz.seqLen = 0 ∧ b' = n := by
  have hL : Layer f (x ++ [l]) els' := hg.layer.step hs
  have hlen := hg.len_le
  have hxl : (x ++ [l]).length = x.length + 1 := by simp
  have hhead : ((els'.head?).map Node.depth).getD 0 = x.length + 1 := by
    rcases els' with _ | ⟨e, es⟩
    · exact absurd rfl hs.ne
    · have := hL.depth e (by simp)
      simpa using this
  obtain ⟨b', k, h1, h2, h3⟩ := mrca_spec (x.length + 1) (x.length + 1 + 1) els' (le_refl _) hs.ne
    (List.Nodup.of_map _ hs.nodup) (fun n hn => by rw [hL.depth n hn, hxl])
  -- the old base is a common ancestor too
  have hold : ∀ n ∈ els', back (len + 1) n = b := by
    intro n hn
    obtain ⟨p, hp, i, a, _, _, _, rfl⟩ := hs.sound n hn
    exact hg.base p hp
  have hk : k ≤ len + 1 := h3 (len + 1) ⟨b, hold⟩
  obtain ⟨n0, hn0⟩ := List.exists_mem_of_ne_nil _ hs.ne
  have hgold : Good f (x ++ [l]) els' (len + 1) b := ⟨hL, by omega, hold⟩
  have hgnew : Good f (x ++ [l]) els' k b' := ⟨hL, by omega, h2⟩
  obtain ⟨els0, hL0, hb'⟩ := hL.back_layer k (by omega) n0 hn0
  rw [h2 n0 hn0] at hb'
  have hlen0 : ((x ++ [l]).take ((x ++ [l]).length - k)).length = x.length + 1 - k := by
    rw [List.length_take, hxl]; omega
  obtain ⟨p, h4, h5, h6, h7, h8, _⟩ := hL0.seg_path (len + 1 - k) (by rw [hlen0]; omega) b' hb'
  have hbb : back (len + 1 - k) b' = b := by
    rw [← h2 n0 hn0, ← back_add, Nat.sub_add_cancel hk]
    exact hold n0 hn0
  rw [hbb] at h5 h7 h8
  obtain ⟨nm, hnm⟩ := normalizer_some o op els' hs.ne
  have hw : b'.fwd - b.fwd = score p := by rw [h7]; abel
  refine ⟨⟨k, nm, b'.fwd - b.fwd, seg (len + 1 - k) b'⟩, b', ?_, hgnew, ?_, rfl, hnm, ?_, ?_⟩
  · rw [normalize, hhead, h1]
    simp only [if_pos hk, h8, hnm]
  · refine ⟨⟨p, h4, h5, ?_, hw.symm⟩, ?_, ?_⟩
    · rw [h6, hlen0]
      simp only
      rw [← rest_snoc]
      unfold rest
      rw [show x.length + 1 - k - (len + 1 - k) = (x ++ [l]).length - (len + 1) by omega]
      exact drop_split _ _ _ (by omega) (by omega)
    · intro t q hq hql
      simp only at hq hql ⊢
      rw [← rest_snoc] at hql
      obtain ⟨n, hn, h9, h10⟩ := hgold.reach q t hq hql
      obtain ⟨q', _, h11, h12, h13, _⟩ := hgnew.elem n hn
      rw [h9] at h11
      refine ⟨q', h11, h12, ?_⟩
      rw [h13] at h10
      have := le_sub_iff_add_le'.2 h10
      rw [show b'.fwd - b.fwd + score q' = b'.fwd + score q' - b.fwd by abel]
      exact this
    · obtain ⟨q, _, h9, h10, _⟩ := hgold.elem n0 hn0
      rw [rest_snoc] at h10
      exact ⟨n0.state, q, h9, h10⟩
  · rw [compactOf]
    rcases he : o.nodes els' with _ | ⟨e, es⟩
    · have := o.nodes_perm els'
      rw [he] at this
      exact absurd (List.nil_perm.1 this) hs.ne
    · have hmem : e ∈ els' := by
        have := o.nodes_perm els'
        rw [he] at this
        exact this.mem_iff.1 (by simp)
      obtain ⟨_, _, _, _, _, h9⟩ := hgnew.elem e hmem
      simp only [h9, Option.map_some]
      rfl
  · intro n hn
    subst hn
    have h0 : k = 0 := Nat.le_zero.1 (h3 0 ⟨n, by simp [back]⟩)
    refine ⟨h0, ?_⟩
    have := h2 n (by simp)
    rw [h0] at this
    exact this.symm

end Verif.Fsa.Det
