import Verif.Fsa.Ops.SelfLoopsModel

/-! # C30: epsilon self-loops add nothing and can be removed -/

namespace Verif.Fsa
open Verif.Util
variable {W : Type}

/-- The expected arcs (with arc-map entries) of state `s`: its self-loop, then its old arcs. -/
def loopRow [Zero W] (f : Fsa W) (s : Nat) : List (Arc W × Int) :=
  (if s + 1 < f.numStates then [(loopArc s, (-1 : Int))] else []) ++
    (f.arcs.filter (fun a => a.src == s)).mapIdx (fun k a => (a, ((splits f.rows s + k : Nat) : Int)))

def loopRows [Zero W] (f : Fsa W) : List (List (Arc W × Int)) :=
  (List.range f.numStates).map (loopRow f)

theorem loopRows_get [Zero W] (f : Fsa W) (s : Nat) (h : s < f.numStates) :
    (loopRows f)[s]? = some (loopRow f s) := by simp [loopRows, h]

theorem loopRows_splits [Zero W] (f : Fsa W) (s : Nat) (h : s < f.numStates) :
    splits (loopRows f) s = splits f.rows s + s := by
  induction s with
  | zero => simp
  | succ s ih =>
    rw [splits_succ _ s _ (loopRows_get f s (by omega)),
      splits_succ _ s _ (rows_get f s (by omega)), ih (by omega)]
    simp only [loopRow, if_pos (show s + 1 < f.numStates from h), List.length_append,
      List.length_cons, List.length_nil, List.length_mapIdx]
    omega

theorem last_row_nil {f : Fsa W} (hf : f.Valid) :
    f.arcs.filter (fun a => a.src == f.numStates - 1) = [] := by
  rw [List.filter_eq_nil_iff]
  intro a ha
  have := hf.src_lt a ha
  simp only [Fsa.final] at this
  simp; omega

theorem loopRows_length [Zero W] {f : Fsa W} (hf : f.Valid) :
    (loopRows f).flatten.length = f.arcs.length + (f.numStates - 1) := by
  have h2 := hf.two
  have hl : (loopRows f).length = f.numStates := by simp [loopRows]
  obtain ⟨n, hn⟩ : ∃ n, f.numStates = n + 1 := ⟨f.numStates - 1, by omega⟩
  have e1 := splits_length (loopRows f)
  rw [hl, hn, splits_succ _ n _ (loopRows_get f n (by omega)), loopRows_splits f n (by omega)] at e1
  have e2 := splits_length f.rows
  rw [rows_length, hn, splits_succ _ n _ (rows_get f n (by omega)), hf.rows_flatten] at e2
  have hlast := last_row_nil hf
  rw [show f.numStates - 1 = n by omega] at hlast
  rw [hlast] at e2
  simp only [loopRow, if_neg (show ¬ n + 1 < f.numStates by omega), hlast, List.mapIdx_nil,
    List.append_nil, List.length_nil] at e1 e2
  omega

theorem addLoops_eq [Zero W] {f : Fsa W} (hf : f.Valid) :
    addLoops f = some (⟨f.numStates, (loopRows f).flatten.map Prod.fst⟩,
      (loopRows f).flatten.map Prod.snd) := by
  have h2 := hf.two
  have hrf := hf.rows_flatten
  unfold addLoops
  rw [if_neg (by omega), scatter_eq _ _ (loopRows f).flatten (loopRows_length hf) ?_ ?_]
  · rfl
  · intro w hw
    rcases List.mem_append.mp hw with hw | hw
    · obtain ⟨i, hi, rfl⟩ := List.mem_mapIdx.mp hw
      have hi' : i < f.rows.flatten.length := by rw [hrf]; exact hi
      obtain ⟨s, r, k, hr, hk, he⟩ := flatten_pos f.rows i hi'
      have hg := flatten_get f.rows s r hr k hk
      rw [← he, hrf, List.getElem?_eq_getElem hi] at hg
      have hs : s < f.numStates := by
        have := (List.getElem?_eq_some_iff.mp hr).1; simpa using this
      have hsrc : f.arcs[i].src = s :=
        rows_src f s r hr _ (List.mem_of_getElem? hg.symm)
      rw [rows_get f s hs] at hr
      obtain rfl := Option.some.inj hr
      have hlt := hf.src_lt _ (List.getElem_mem hi)
      simp only [Fsa.final] at hlt
      have hrow : loopRow f s = (loopArc s, (-1 : Int)) ::
          (f.arcs.filter (fun a => a.src == s)).mapIdx
            (fun k a => (a, ((splits f.rows s + k : Nat) : Int))) := by
        simp only [loopRow, if_pos (show s + 1 < f.numStates by omega), List.singleton_append]
      have hget := flatten_get (loopRows f) s _ (loopRows_get f s hs) (k + 1) (by
        rw [hrow]; simpa using hk)
      rw [hrow, List.getElem?_cons_succ, List.getElem?_mapIdx, ← hg, loopRows_splits f s hs] at hget
      simp only [Option.map_some] at hget ⊢
      rw [hsrc, show i + 1 + s = splits f.rows s + s + (k + 1) by omega, hget]
      congr 2; omega
    · obtain ⟨s, hs, rfl⟩ := List.mem_map.mp hw
      rw [List.mem_filter, List.mem_range] at hs
      have hs2 : s + 1 < f.numStates := by simpa using hs.2
      have hrow : loopRow f s = (loopArc s, (-1 : Int)) ::
          (f.arcs.filter (fun a => a.src == s)).mapIdx
            (fun k a => (a, ((splits f.rows s + k : Nat) : Int))) := by
        simp only [loopRow, if_pos hs2, List.singleton_append]
      have hget := flatten_get (loopRows f) s _ (loopRows_get f s hs.1) 0 (by rw [hrow]; simp)
      rw [hrow, List.getElem?_cons_zero, loopRows_splits f s hs.1, Nat.add_zero] at hget
      exact hget
  · intro j hj
    rw [← loopRows_length hf] at hj
    obtain ⟨s, r, k, hr, hk, he⟩ := flatten_pos _ j hj
    have hs : s < f.numStates := by
      have := (List.getElem?_eq_some_iff.mp hr).1; simpa [loopRows] using this
    rw [loopRows_get f s hs] at hr
    obtain rfl := Option.some.inj hr
    rw [loopRows_splits f s hs] at he
    by_cases hlast : s + 1 < f.numStates
    · cases k with
      | zero =>
        refine ⟨_, List.mem_append.mpr (Or.inr (List.mem_map.mpr ⟨s, ?_, rfl⟩)), by simpa using he.symm⟩
        rw [List.mem_filter, List.mem_range]; exact ⟨hs, by simpa using hlast⟩
      | succ k =>
        simp only [loopRow, if_pos hlast, List.singleton_append, List.length_cons,
          List.length_mapIdx] at hk
        have hk' : k < (f.arcs.filter (fun a => a.src == s)).length := by omega
        have hg := flatten_get f.rows s _ (rows_get f s hs) k hk'
        rw [hrf, List.getElem?_eq_getElem hk'] at hg
        obtain ⟨hi, hge⟩ := List.getElem?_eq_some_iff.mp hg
        refine ⟨_, List.mem_append.mpr (Or.inl (List.mem_mapIdx.mpr ⟨_, hi, rfl⟩)), ?_⟩
        have : (f.arcs[splits f.rows s + k]).src = s := by
          rw [hge]
          simpa using (List.mem_filter.mp (List.getElem_mem hk')).2
        simp only [this]; omega
    · exfalso
      have hsn : s = f.numStates - 1 := by omega
      have := last_row_nil hf
      rw [loopRow, if_neg hlast, hsn, this] at hk
      simp at hk

theorem addLoops_some [Zero W] {f g : Fsa W} {m : List Int} (hf : f.Valid)
    (h : addLoops f = some (g, m)) : g = ⟨f.numStates, (loopRows f).flatten.map Prod.fst⟩ ∧
      m = (loopRows f).flatten.map Prod.snd := by
  rw [addLoops_eq hf] at h
  simp only [Option.some.injEq, Prod.mk.injEq] at h
  exact ⟨h.1.symm, h.2.symm⟩

theorem loopRow_mem [Zero W] (f : Fsa W) (s : Nat) (x : Arc W × Int) (h : x ∈ loopRow f s) :
    x.1.src = s ∧ ((x = (loopArc s, -1) ∧ s + 1 < f.numStates) ∨ x.1 ∈ f.arcs) := by
  unfold loopRow at h
  rcases List.mem_append.mp h with h | h
  · by_cases hc : s + 1 < f.numStates
    · rw [if_pos hc, List.mem_singleton] at h
      subst h
      exact ⟨rfl, Or.inl ⟨rfl, hc⟩⟩
    · rw [if_neg hc] at h; simp at h
  · obtain ⟨k, hk, rfl⟩ := List.mem_mapIdx.mp h
    have := List.mem_filter.mp (List.getElem_mem hk)
    exact ⟨by simpa using this.2, Or.inr this.1⟩

/-- **C30 (arcs).** Every non-final state gets one epsilon self-loop with score 0 before its old
arcs; the final state has no arcs. -/
theorem addLoops_rows [Zero W] {f g : Fsa W} {m : List Int} (hf : f.Valid)
    (h : addLoops f = some (g, m)) :
    g.numStates = f.numStates ∧
    (∀ s, s < f.final → g.arcs.filter (fun a => a.src == s) =
      ⟨s, s, 0, 0⟩ :: f.arcs.filter (fun a => a.src == s)) ∧
    g.arcs.filter (fun a => a.src == f.final) = [] ∧ g.Valid := by
  have h2 := hf.two
  obtain ⟨hg, hm⟩ := addLoops_some hf h
  have hrow : ∀ s, s < f.numStates → g.arcs.filter (fun a => a.src == s) =
      (loopRow f s).map Prod.fst := by
    intro s hs
    rw [hg]
    simp only [loopRows, List.map_flatten, List.map_map, List.filter_flatten]
    have : ∀ n, n ≤ f.numStates →
        (List.map (List.filter fun a : Arc W => a.src == s)
          (List.map (List.map Prod.fst ∘ loopRow f) (List.range n))).flatten =
        if s < n then (loopRow f s).map Prod.fst else [] := by
      intro n hn
      induction n with
      | zero => simp
      | succ n ih =>
        rw [List.range_succ, List.map_append, List.map_append, List.flatten_append, ih (by omega)]
        simp only [List.map_cons, List.map_nil, List.flatten_cons, List.flatten_nil,
          List.append_nil, Function.comp]
        rcases Nat.lt_trichotomy s n with hlt | heq | hgt
        · rw [if_pos hlt, if_pos (by omega)]
          have : List.filter (fun a : Arc W => a.src == s) ((loopRow f n).map Prod.fst) = [] := by
            rw [List.filter_eq_nil_iff]
            intro a ha
            obtain ⟨x, hx, rfl⟩ := List.mem_map.mp ha
            have := (loopRow_mem f n x hx).1
            simp; omega
          rw [this, List.append_nil]
        · subst heq
          rw [if_neg (by omega), if_pos (by omega), List.nil_append, List.filter_eq_self]
          intro a ha
          obtain ⟨x, hx, rfl⟩ := List.mem_map.mp ha
          simpa using (loopRow_mem f s x hx).1
        · rw [if_neg (by omega), if_neg (by omega), List.nil_append, List.filter_eq_nil_iff]
          intro a ha
          obtain ⟨x, hx, rfl⟩ := List.mem_map.mp ha
          have := (loopRow_mem f n x hx).1
          simp; omega
    rw [← List.map_map, this _ (Nat.le_refl _), if_pos hs]
  have hmapfst : ∀ s, ((f.arcs.filter (fun a => a.src == s)).mapIdx
      (fun k a => (a, ((splits f.rows s + k : Nat) : Int)))).map Prod.fst =
      f.arcs.filter (fun a => a.src == s) := by
    intro s
    apply List.ext_getElem?
    intro i
    simp only [List.getElem?_map, List.getElem?_mapIdx, Option.map_map]
    exact Option.map_id'
  have hfn : f.final = f.numStates - 1 := rfl
  have hgn : g.numStates = f.numStates := by rw [hg]
  have hgm : ∀ a ∈ g.arcs, (∃ s, s + 1 < f.numStates ∧ a = loopArc s) ∨ a ∈ f.arcs := by
    intro a ha
    rw [hg] at ha
    obtain ⟨x, hx, rfl⟩ := List.mem_map.mp ha
    obtain ⟨l, hl, hx⟩ := List.mem_flatten.mp hx
    obtain ⟨s, _, rfl⟩ := List.mem_map.mp hl
    rcases (loopRow_mem f s x hx).2 with ⟨rfl, hs⟩ | hm
    · exact Or.inl ⟨s, hs, rfl⟩
    · exact Or.inr hm
  refine ⟨hgn, ?_, ?_, ?_⟩
  · intro s hs
    rw [hrow s (by omega), loopRow, if_pos (by omega), List.map_append, hmapfst]
    rfl
  · rw [hrow _ (by omega), loopRow, if_neg (by omega), hfn, last_row_nil hf]
    rfl
  · refine ⟨by omega, ?_, ?_, ?_, ?_⟩
    · unfold Fsa.Sorted
      rw [hg]
      simp only [List.pairwise_map]
      rw [List.pairwise_flatten]
      constructor
      · intro l hl
        obtain ⟨s, _, rfl⟩ := List.mem_map.mp hl
        rw [List.pairwise_iff_forall_sublist]
        intro a b hab
        have ha := (loopRow_mem f s a (hab.subset (by simp))).1
        have hb := (loopRow_mem f s b (hab.subset (by simp))).1
        omega
      · rw [loopRows, List.pairwise_map]
        refine List.pairwise_lt_range.imp ?_
        intro s t hst a ha b hb
        have ha := (loopRow_mem f s a ha).1
        have hb := (loopRow_mem f t b hb).1
        omega
    · intro a ha
      simp only [Fsa.final, hgn]
      rcases hgm a ha with ⟨s, hs, rfl⟩ | hm
      · simp only [loopArc]; omega
      · have := hf.src_lt a hm; simpa [Fsa.final] using this
    · intro a ha
      rw [hgn]
      rcases hgm a ha with ⟨s, hs, rfl⟩ | hm
      · simp only [loopArc]; omega
      · exact hf.dst_lt a hm
    · intro a ha
      simp only [Fsa.final, hgn]
      rcases hgm a ha with ⟨s, hs, rfl⟩ | hm
      · simp only [loopArc]
        constructor <;> intro h <;> omega
      · have := hf.final_iff a hm; simpa [Fsa.final] using this

theorem addLoops_mem [Zero W] {f g : Fsa W} {m : List Int} (hf : f.Valid)
    (h : addLoops f = some (g, m)) (a : Arc W) :
    a ∈ g.arcs ↔ a ∈ f.arcs ∨ ∃ s, s < f.final ∧ a = ⟨s, s, 0, 0⟩ := by
  obtain ⟨hgn, hrow, hlast, hgv⟩ := addLoops_rows hf h
  have hgf : g.final = f.final := by simp only [Fsa.final, hgn]
  constructor
  · intro ha
    have hs : a.src < f.final := by rw [← hgf]; exact hgv.src_lt a ha
    have : a ∈ g.arcs.filter (fun b => b.src == a.src) := List.mem_filter.mpr ⟨ha, by simp⟩
    rw [hrow _ hs] at this
    rcases List.mem_cons.mp this with e | hm
    · exact Or.inr ⟨_, hs, e⟩
    · exact Or.inl (List.mem_filter.mp hm).1
  · have key : ∀ s, s < f.final → a ∈ (⟨s, s, 0, 0⟩ : Arc W) ::
        f.arcs.filter (fun a => a.src == s) → a ∈ g.arcs := by
      intro s hs hm
      rw [← hrow s hs] at hm
      exact (List.mem_filter.mp hm).1
    rintro (ha | ⟨s, hs, rfl⟩)
    · exact key a.src (hf.src_lt a ha) (List.mem_cons_of_mem _ (List.mem_filter.mpr ⟨ha, by simp⟩))
    · exact key s hs (by simp)

/-- **C30 (language).** Adding epsilon self-loops does not change the weighted language. -/
theorem addLoops_accepts [AddMonoid W] {f g : Fsa W} {m : List Int} (hf : f.Valid)
    (h : addLoops f = some (g, m)) (s : List Int) (w : W) : Accepts g s w ↔ Accepts f s w := by
  obtain ⟨hgn, -, -, -⟩ := addLoops_rows hf h
  have hgf : g.final = f.final := by simp only [Fsa.final, hgn]
  have hmem := addLoops_mem hf h
  constructor
  · rintro ⟨p, ⟨_, hp⟩, rfl, rfl⟩
    rw [hgf] at hp
    have : ∀ (p : List (Arc W)) (s : Nat), Path g.arcs s p f.final →
        ∃ q, Path f.arcs s q f.final ∧ strip (labels q) = strip (labels p) ∧ score q = score p := by
      intro p
      induction p with
      | nil => intro s hp; exact ⟨[], by rw [path_nil] at hp ⊢; exact hp, rfl, rfl⟩
      | cons a p ih =>
        intro s hp
        rw [path_cons] at hp
        obtain ⟨ha, hs, hp⟩ := hp
        obtain ⟨q, hq, hl, hsc⟩ := ih _ hp
        rcases (hmem a).mp ha with hm | ⟨t, _, rfl⟩
        · refine ⟨a :: q, (path_cons _ _ _ _ _).mpr ⟨hm, hs, hq⟩, ?_, ?_⟩
          · simp only [labels_cons, strip, List.filter_cons] at hl ⊢; rw [hl]
          · rw [score_cons, score_cons, hsc]
        · refine ⟨q, by simp only at hs hq; rw [← hs]; exact hq, ?_, ?_⟩
          · rw [hl]; simp [strip]
          · rw [hsc]; simp
    obtain ⟨q, hq, hl, hsc⟩ := this p 0 hp
    exact ⟨q, ⟨hf.two, hq⟩, hl, hsc⟩
  · rintro ⟨p, ⟨_, hp⟩, rfl, rfl⟩
    refine ⟨p, ⟨by rw [hgn]; exact hf.two, ?_⟩, rfl, rfl⟩
    rw [hgf]
    exact hp.mono (fun a ha => (hmem a).mpr (Or.inl ha))

/-- Specification: `a` is an epsilon self-loop. -/
def EpsLoop (a : Arc W) : Prop := a.label = 0 ∧ a.src = a.dst

theorem keepArc_iff {a : Arc W} : keepArc a = true ↔ ¬ EpsLoop a := by
  unfold keepArc EpsLoop
  by_cases h1 : a.label = 0 <;> by_cases h2 : a.src = a.dst <;> simp [h1, h2]

/-- **C30 (removal).** Removing the self-loops after adding them gives back an FSA without
epsilon self-loops, and composing the two arc maps gives the identity. -/
theorem removeLoops_addLoops [Zero W] {f g : Fsa W} {m : List Int} (hf : f.Valid)
    (hn : ∀ a ∈ f.arcs, ¬ EpsLoop a) (h : addLoops f = some (g, m)) :
    (removeLoops g).1 = f ∧
    (removeLoops g).2.map (fun j => m[j.toNat]?) =
      (List.range f.arcs.length).map (fun (i : Nat) => some (i : Int)) := by
  obtain ⟨hg, hm⟩ := addLoops_some hf h
  -- the kept (arc, arc-map) pairs
  have hkept : (loopRows f).flatten.filter (fun x => keepArc x.1) =
      f.arcs.mapIdx (fun i a => (a, (i : Int))) := by
    have hrow : ∀ s, (loopRow f s).filter (fun x => keepArc x.1) =
        (f.arcs.filter (fun a => a.src == s)).mapIdx
          (fun k a => (a, ((splits f.rows s + k : Nat) : Int))) := by
      intro s
      unfold loopRow
      rw [List.filter_append]
      have h1 : List.filter (fun x : Arc W × Int => keepArc x.1)
          (if s + 1 < f.numStates then [(loopArc s, (-1 : Int))] else []) = [] := by
        split
        · simp [loopArc, keepArc]
        · rfl
      rw [h1, List.nil_append, List.filter_eq_self]
      intro x hx
      obtain ⟨k, hk, rfl⟩ := List.mem_mapIdx.mp hx
      have hm := (List.mem_filter.mp (List.getElem_mem hk)).1
      exact keepArc_iff.mpr (hn _ hm)
    have hgen : ∀ n, n ≤ f.numStates →
        ((List.range n).map (fun s => (f.arcs.filter (fun a => a.src == s)).mapIdx
          (fun k a => (a, ((splits f.rows s + k : Nat) : Int))))).flatten =
        (((List.range n).map (fun s => f.arcs.filter (fun a => a.src == s))).flatten).mapIdx
          (fun i a => (a, (i : Int))) := by
      intro n hn'
      induction n with
      | zero => rfl
      | succ n ih =>
        rw [List.range_succ, List.map_append, List.flatten_append, ih (by omega), List.map_append,
          List.flatten_append, List.mapIdx_append]
        congr 1
        simp only [List.map_cons, List.map_nil, List.flatten_cons, List.flatten_nil, List.append_nil]
        have : splits f.rows n =
            ((List.range n).map (fun s => f.arcs.filter (fun a => a.src == s))).flatten.length := by
          rw [List.length_flatten, splits, Fsa.rows, ← List.map_take, List.take_range,
            Nat.min_eq_left (by omega)]
        rw [this]
        apply List.ext_getElem?
        intro i
        simp only [List.getElem?_mapIdx]
        congr 1
        funext a
        rw [Nat.add_comm]
    rw [loopRows, List.filter_flatten, List.map_map]
    have : (List.filter (fun x : Arc W × Int => keepArc x.1)) ∘ loopRow f =
        fun s => (f.arcs.filter (fun a => a.src == s)).mapIdx
          (fun k a => (a, ((splits f.rows s + k : Nat) : Int))) := by
      funext s; exact hrow s
    rw [this, hgen _ (Nat.le_refl _)]
    have := hf.rows_flatten
    unfold Fsa.rows at this
    rw [this]
  -- filtering commutes with attaching positions
  have hidx : ∀ (l : List (Arc W × Int)) (n : Nat),
      ((l.mapIdx (fun i x => (x.1, ((n + i : Nat) : Int)))).filter
        (fun x => keepArc x.1)).map
          (fun y => (y.1, (if y.2.toNat < n then none else (l.map Prod.snd)[y.2.toNat - n]?))) =
      (l.filter (fun x => keepArc x.1)).map
        (fun x => (x.1, some x.2)) := by
    intro l
    induction l with
    | nil => intro n; rfl
    | cons x l ih =>
      intro n
      have ih := ih (n + 1)
      rw [List.mapIdx_cons]
      have hshift : (l.mapIdx (fun i (y : Arc W × Int) => (y.1, ((n + (i + 1) : Nat) : Int)))) =
          l.mapIdx (fun i y => (y.1, ((n + 1 + i : Nat) : Int))) := by
        congr 1; funext i y; rw [show n + (i + 1) = n + 1 + i by omega]
      rw [hshift]
      have hmapeq : ((l.mapIdx (fun i (y : Arc W × Int) => (y.1, ((n + 1 + i : Nat) : Int)))).filter
          (fun x => keepArc x.1)).map
          (fun y => (y.1, (if y.2.toNat < n then none else
            ((x :: l).map Prod.snd)[y.2.toNat - n]?))) =
          ((l.mapIdx (fun i (y : Arc W × Int) => (y.1, ((n + 1 + i : Nat) : Int)))).filter
          (fun x => keepArc x.1)).map
          (fun y => (y.1, (if y.2.toNat < n + 1 then none else
            (l.map Prod.snd)[y.2.toNat - (n + 1)]?))) := by
        apply List.map_congr_left
        intro y hy
        obtain ⟨i, hi, rfl⟩ := List.mem_mapIdx.mp (List.mem_filter.mp hy).1
        simp only [Int.toNat_natCast]
        rw [if_neg (by omega), if_neg (by omega), show n + 1 + i - n = i + 1 by omega,
          List.map_cons, List.getElem?_cons_succ, show n + 1 + i - (n + 1) = i by omega]
      by_cases hc : keepArc x.1 = true
      · rw [List.filter_cons_of_pos (by simpa using hc), List.filter_cons_of_pos (by simpa using hc), List.map_cons,
          List.map_cons]
        congr 1
        · simp
        · exact hmapeq.trans ih
      · rw [List.filter_cons_of_neg (by simpa using hc), List.filter_cons_of_neg (by simpa using hc), hmapeq, ih]
  have h0 := hidx (loopRows f).flatten 0
  simp only [Nat.zero_add, Nat.not_lt_zero, if_false, Nat.sub_zero] at h0
  rw [hkept] at h0
  have hmi : (g.arcs.mapIdx (fun i a => (a, (i : Int)))) =
      (loopRows f).flatten.mapIdx (fun i x => (x.1, (i : Int))) := by
    rw [hg]
    apply List.ext_getElem?
    intro i
    simp only [List.getElem?_mapIdx, List.getElem?_map, Option.map_map]
    rfl
  unfold removeLoops
  simp only
  rw [hmi]
  constructor
  · have := congrArg (List.map Prod.fst) h0
    simp only [List.map_map] at this
    rw [show f = ⟨f.numStates, f.arcs⟩ from rfl]
    congr 1
    · rw [hg]
    · refine Eq.trans (Eq.trans ?_ this) ?_
      · rfl
      · apply List.ext_getElem?
        intro i
        simp only [List.getElem?_map, List.getElem?_mapIdx, Option.map_map]
        exact Option.map_id'
  · have := congrArg (List.map Prod.snd) h0
    simp only [List.map_map] at this
    rw [List.map_map, hm]
    refine Eq.trans (Eq.trans ?_ this) ?_
    · rfl
    · apply List.ext_getElem?
      intro i
      simp only [List.getElem?_map, List.getElem?_mapIdx, Option.map_map]
      by_cases hi : i < f.arcs.length
      · rw [List.getElem?_range hi, List.getElem?_eq_getElem hi]; rfl
      · rw [List.getElem?_eq_none (by simpa using hi), List.getElem?_eq_none (by simpa using hi)]
        rfl

theorem removeLoops_arcs (f : Fsa W) :
    (removeLoops f).1.numStates = f.numStates ∧
    (removeLoops f).1.arcs = f.arcs.filter (fun a => keepArc a) := by
  refine ⟨rfl, ?_⟩
  unfold removeLoops
  simp only
  have : ∀ (l : List (Arc W)) (n : Nat),
      ((l.mapIdx (fun i a => (a, ((n + i : Nat) : Int)))).filter
        (fun x => keepArc x.1)).map Prod.fst =
      l.filter (fun a => keepArc a) := by
    intro l
    induction l with
    | nil => intro n; rfl
    | cons a l ih =>
      intro n
      rw [List.mapIdx_cons]
      have hs : (l.mapIdx (fun i (y : Arc W) => (y, ((n + (i + 1) : Nat) : Int)))) =
          l.mapIdx (fun i y => (y, ((n + 1 + i : Nat) : Int))) := by
        congr 1; funext i y; rw [show n + (i + 1) = n + 1 + i by omega]
      rw [hs]
      by_cases hc : keepArc a = true
      · rw [List.filter_cons_of_pos (by simpa using hc), List.filter_cons_of_pos (by simpa using hc), List.map_cons,
          ih (n + 1)]
      · rw [List.filter_cons_of_neg (by simpa using hc), List.filter_cons_of_neg (by simpa using hc), ih (n + 1)]
  simpa using this f.arcs 0

/-- Removing epsilon self-loops keeps the accepted strings: the accepting paths that remain are
the accepting paths without epsilon self-loops, and every accepted string has one. -/
theorem removeLoops_strings [AddMonoid W] (f : Fsa W) :
    (∀ p, Accepting (removeLoops f).1 p ↔ Accepting f p ∧ ∀ a ∈ p, ¬ EpsLoop a) ∧
    (∀ s, (∃ w, Accepts f s w) ↔ ∃ w, Accepts (removeLoops f).1 s w) := by
  obtain ⟨hn, ha⟩ := removeLoops_arcs f
  have hfin : (removeLoops f).1.final = f.final := by simp only [Fsa.final, hn]
  have hp : ∀ p, Accepting (removeLoops f).1 p ↔ Accepting f p ∧ ∀ a ∈ p, ¬ EpsLoop a := by
    intro p
    simp only [Accepting, Path, hn, hfin, ha, List.mem_filter, keepArc_iff]
    constructor
    · rintro ⟨h1, h2, h3⟩
      exact ⟨⟨h1, h2, fun a h => (h3 a h).1⟩, fun a h => (h3 a h).2⟩
    · rintro ⟨⟨h1, h2, h3⟩, h4⟩
      exact ⟨h1, h2, fun a h => ⟨h3 a h, h4 a h⟩⟩
  refine ⟨hp, fun s => ⟨?_, ?_⟩⟩
  · rintro ⟨w, p, ⟨h2, hpath⟩, rfl, rfl⟩
    have : ∀ (p : List (Arc W)) (s t : Nat), Path f.arcs s p t →
        ∃ q, Path f.arcs s q t ∧ (∀ a ∈ q, ¬ EpsLoop a) ∧ strip (labels q) = strip (labels p) := by
      intro p
      induction p with
      | nil => intro s t hp; exact ⟨[], hp, by simp, rfl⟩
      | cons a p ih =>
        intro s t hp
        rw [path_cons] at hp
        obtain ⟨ha, hs, hp⟩ := hp
        obtain ⟨q, hq, hne, hl⟩ := ih _ _ hp
        by_cases he : EpsLoop a
        · refine ⟨q, ?_, hne, ?_⟩
          · rw [← hs, he.2]; exact hq
          · rw [hl]; simp [strip, he.1]
        · refine ⟨a :: q, (path_cons _ _ _ _ _).mpr ⟨ha, hs, hq⟩, ?_, ?_⟩
          · intro b hb
            rcases List.mem_cons.mp hb with rfl | hb
            · exact he
            · exact hne b hb
          · simp only [labels_cons, strip, List.filter_cons] at hl ⊢; rw [hl]
    obtain ⟨q, hq, hne, hl⟩ := this p _ _ hpath
    exact ⟨score q, q, (hp q).mpr ⟨⟨h2, hq⟩, hne⟩, hl, rfl⟩
  · rintro ⟨w, p, hpath, rfl, rfl⟩
    exact ⟨_, p, ((hp p).mp hpath).1, rfl, rfl⟩

/-- The kernels of `AddEpsilonSelfLoops` write every position at most once. -/
theorem addLoops_writes_once [Zero W] {f : Fsa W} (hf : f.Valid) :
    ((copyWrites f ++ loopWrites f).map Prod.fst).Nodup := by
  have h2 := hf.two
  have hrf := hf.rows_flatten
  -- a copied arc at row position k of state s
  have hpos : ∀ (i : Nat) (hi : i < f.arcs.length), ∃ k,
      i = splits f.rows f.arcs[i].src + k ∧
      k < (f.arcs.filter (fun a => a.src == f.arcs[i].src)).length ∧
      f.arcs[i].src + 1 < f.numStates := by
    intro i hi
    have hi' : i < f.rows.flatten.length := by rw [hrf]; exact hi
    obtain ⟨s, r, k, hr, hk, he⟩ := flatten_pos f.rows i hi'
    have hg := flatten_get f.rows s r hr k hk
    rw [← he, hrf, List.getElem?_eq_getElem hi] at hg
    have hs : s < f.numStates := by
      have := (List.getElem?_eq_some_iff.mp hr).1; simpa using this
    have hsrc : f.arcs[i].src = s :=
      rows_src f s r hr _ (List.mem_of_getElem? hg.symm)
    rw [rows_get f s hs] at hr
    obtain rfl := Option.some.inj hr
    have hlt := hf.src_lt _ (List.getElem_mem hi)
    simp only [Fsa.final] at hlt
    rw [hsrc]
    exact ⟨k, he, hk, by omega⟩
  have hmono : ∀ s t, s < t → t < f.numStates →
      splits f.rows s + (f.arcs.filter (fun a => a.src == s)).length ≤ splits f.rows t := by
    intro s t hst ht
    rw [← splits_succ _ s _ (rows_get f s (by omega))]
    exact splits_mono _ hst
  rw [List.map_append, List.nodup_append]
  refine ⟨?_, ?_, ?_⟩
  · rw [List.nodup_iff_pairwise_ne, List.pairwise_iff_getElem]
    intro i j hi hj hij
    simp only [List.length_map, copyWrites, List.length_mapIdx] at hi hj
    simp only [copyWrites, List.getElem_map, List.getElem_mapIdx]
    have := List.pairwise_iff_getElem.mp hf.sorted i j hi hj hij
    omega
  · rw [loopWrites, List.map_map, List.nodup_iff_pairwise_ne, List.pairwise_map]
    refine (List.pairwise_lt_range.filter _).imp_of_mem ?_
    intro s t hs ht hst
    have h1 := splits_mono f.rows (Nat.le_of_lt hst)
    simp only [Function.comp]; omega
  · intro x hx y hy
    obtain ⟨w, hw, rfl⟩ := List.mem_map.mp hx
    obtain ⟨v, hv, rfl⟩ := List.mem_map.mp hy
    obtain ⟨i, hi, rfl⟩ := List.mem_mapIdx.mp hw
    obtain ⟨t, ht, rfl⟩ := List.mem_map.mp hv
    rw [List.mem_filter, List.mem_range] at ht
    obtain ⟨k, hk, hk2, hk3⟩ := hpos i hi
    simp only
    rcases Nat.lt_trichotomy f.arcs[i].src t with hlt | heq | hgt
    · have := hmono _ _ hlt ht.1; omega
    · subst heq; omega
    · have := hmono _ _ hgt (by omega); omega

/-- A concrete case: adding the self-loops of a three-state FSA. -/
example : addLoops (⟨3, [⟨0, 1, 7, (1 : Int)⟩, ⟨0, 2, -1, 2⟩, ⟨1, 2, -1, 3⟩]⟩ : Fsa Int) =
    some (⟨3, [⟨0, 0, 0, 0⟩, ⟨0, 1, 7, 1⟩, ⟨0, 2, -1, 2⟩, ⟨1, 1, 0, 0⟩, ⟨1, 2, -1, 3⟩]⟩,
      [-1, 0, 1, -1, 2]) := by decide +kernel

end Verif.Fsa
