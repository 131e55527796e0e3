import Verif.Fsa.Ops.UnionModel
import Verif.Fsa.Ctc.Props

/-!
# C26: the union accepts exactly what its operands accept

`union_paths` puts the accepting paths of the union in correspondence with the disjoint union
of the accepting paths of the operands; `union_accepts` reads the weighted language off it.
-/

namespace Verif.Fsa
variable {W : Type}

theorem stateOffset_succ (fs : List (Fsa W)) (i : Nat) (f : Fsa W) (h : fs[i]? = some f) :
    stateOffset fs (i + 1) = stateOffset fs i + f.numStates := by
  simp [stateOffset, List.take_add_one, h]

theorem stateOffset_ge (fs : List (Fsa W)) (h2 : ∀ f ∈ fs, 2 ≤ f.numStates) (i : Nat)
    (hi : i ≤ fs.length) : 2 * i ≤ stateOffset fs i := by
  induction i with
  | zero => simp
  | succ i ih =>
    have hl : i < fs.length := hi
    have := stateOffset_succ fs i _ (List.getElem?_eq_getElem hl)
    have := h2 _ (List.getElem_mem hl)
    have := ih (by omega)
    omega

theorem unionBase_succ (fs : List (Fsa W)) (h2 : ∀ f ∈ fs, 2 ≤ f.numStates) (i : Nat)
    (f : Fsa W) (h : fs[i]? = some f) :
    unionBase fs (i + 1) = unionBase fs i + (f.numStates - 1) := by
  have hl : i < fs.length := by
    have := List.getElem?_eq_some_iff.mp h; exact this.1
  have := stateOffset_succ fs i f h
  have := stateOffset_ge fs h2 i (by omega)
  have := h2 f (List.mem_of_getElem? h)
  simp only [unionBase]; omega

theorem unionBase_mono (fs : List (Fsa W)) (h2 : ∀ f ∈ fs, 2 ≤ f.numStates) (i k : Nat)
    (f : Fsa W) (h : fs[i]? = some f) (hk : i + 1 + k ≤ fs.length) :
    unionBase fs i + (f.numStates - 1) ≤ unionBase fs (i + 1 + k) := by
  induction k with
  | zero => simp [unionBase_succ fs h2 i f h]
  | succ k ih =>
    have hl : i + 1 + k < fs.length := by omega
    have := unionBase_succ fs h2 (i + 1 + k) _ (List.getElem?_eq_getElem hl)
    have := ih (by omega)
    rw [show i + 1 + (k + 1) = i + 1 + k + 1 by omega]
    omega

theorem unionBase_lt (fs : List (Fsa W)) (h2 : ∀ f ∈ fs, 2 ≤ f.numStates) (i j : Nat)
    (f : Fsa W) (h : fs[i]? = some f) (hij : i < j) (hj : j ≤ fs.length) :
    unionBase fs i + (f.numStates - 1) ≤ unionBase fs j := by
  have := unionBase_mono fs h2 i (j - i - 1) f h (by omega)
  rwa [show i + 1 + (j - i - 1) = j by omega] at this

theorem unionBase_len (fs : List (Fsa W)) (h2 : ∀ f ∈ fs, 2 ≤ f.numStates) :
    unionBase fs fs.length = unionNumStates fs - 1 := by
  have := stateOffset_ge fs h2 fs.length (Nat.le_refl _)
  simp only [unionBase, unionNumStates, stateOffset, List.take_length] at *
  omega

theorem unionBase_pos (fs : List (Fsa W)) (h2 : ∀ f ∈ fs, 2 ≤ f.numStates) (i : Nat)
    (hi : i ≤ fs.length) : 1 ≤ unionBase fs i := by
  have := stateOffset_ge fs h2 i hi
  simp only [unionBase]; omega

theorem union_some [Zero W] {fs : List (Fsa W)} {g : Fsa W} {m : List Int}
    (h : union fs = some (g, m)) :
    (∀ f ∈ fs, f.arcs ≠ []) ∧ g.numStates = unionNumStates fs ∧
      g.arcs = (List.range fs.length).map (unionStartArc fs) ++
        (fs.mapIdx (fun i f => f.arcs.map (unionArc fs i f.numStates))).flatten ∧
      m = unionArcMap fs := by
  unfold union at h
  by_cases hc : fs.all (fun f => !f.arcs.isEmpty) = true
  · rw [if_pos hc] at h
    simp only [Option.some.injEq, Prod.mk.injEq] at h
    obtain ⟨rfl, rfl⟩ := h
    refine ⟨?_, rfl, rfl, rfl⟩
    intro f hf he
    have := List.all_eq_true.mp hc f hf
    simp [he] at this
  · rw [if_neg hc] at h; exact absurd h (by simp)

theorem union_mem [Zero W] {fs : List (Fsa W)} {g : Fsa W} {m : List Int}
    (h : union fs = some (g, m)) (b : Arc W) :
    b ∈ g.arcs ↔ (∃ i, i < fs.length ∧ b = unionStartArc fs i) ∨
      ∃ i f a, fs[i]? = some f ∧ a ∈ f.arcs ∧ b = unionArc fs i f.numStates a := by
  rw [(union_some h).2.2.1, List.mem_append, List.mem_map, List.mem_flatten]
  apply or_congr
  · constructor
    · rintro ⟨i, hi, rfl⟩; exact ⟨i, List.mem_range.mp hi, rfl⟩
    · rintro ⟨i, hi, rfl⟩; exact ⟨i, List.mem_range.mpr hi, rfl⟩
  · constructor
    · rintro ⟨l, hl, hb⟩
      rw [List.mem_mapIdx] at hl
      obtain ⟨i, hi, rfl⟩ := hl
      obtain ⟨a, ha, rfl⟩ := List.mem_map.mp hb
      exact ⟨i, fs[i], a, List.getElem?_eq_getElem hi, ha, rfl⟩
    · rintro ⟨i, f, a, hf, ha, rfl⟩
      obtain ⟨hi, rfl⟩ := List.getElem?_eq_some_iff.mp hf
      exact ⟨_, List.mem_mapIdx.mpr ⟨i, hi, rfl⟩, List.mem_map.mpr ⟨a, ha, rfl⟩⟩

/-- The image of state `s` of the `i`-th FSA. -/
def unionState (fs : List (Fsa W)) (i n : Nat) (s : Nat) : Nat :=
  if s = n - 1 then unionNumStates fs - 1 else unionBase fs i + s

theorem union_path_inner [Zero W] {fs : List (Fsa W)} {g : Fsa W} {m : List Int}
    (h : union fs = some (g, m)) (hv : ∀ f ∈ fs, f.Valid) (i : Nat) (f : Fsa W)
    (hf : fs[i]? = some f) (p : List (Arc W)) (t' : Nat) :
    Path g.arcs (unionBase fs i) p t' ↔
      ∃ q t, Path f.arcs 0 q t ∧ unionState fs i f.numStates t = t' ∧
        p = q.map (unionArc fs i f.numStates) := by
  have h2 : ∀ f ∈ fs, 2 ≤ f.numStates := fun f hf => (hv f hf).two
  have hfm := List.mem_of_getElem? hf
  have hfv := hv f hfm
  have hil : i < fs.length := (List.getElem?_eq_some_iff.mp hf).1
  have hn := hfv.two
  have e0 : unionBase fs i = unionState fs i f.numStates 0 := by
    unfold unionState; rw [if_neg (by omega)]; omega
  rw [e0]
  refine path_cover (P := fun s => s < f.numStates) (fun a ha _ => hfv.dst_lt a ha)
    (fun a _ _ => rfl) ?_ (by omega) p t'
  intro s hs b
  have hpos := unionBase_pos fs h2
  constructor
  · rintro ⟨hb, hsrc⟩
    rcases (union_mem h b).mp hb with ⟨j, hj, rfl⟩ | ⟨j, f', a, hf', ha, rfl⟩
    · exfalso
      have hp := hpos i (by omega)
      simp only [unionStartArc, unionState] at hsrc
      by_cases hc : s = f.numStates - 1
      · rw [if_pos hc, ← unionBase_len fs h2] at hsrc
        have := hpos fs.length (Nat.le_refl _)
        omega
      · rw [if_neg hc] at hsrc; omega
    · have hjl : j < fs.length := (List.getElem?_eq_some_iff.mp hf').1
      have hv' := hv f' (List.mem_of_getElem? hf')
      have hsl := hv'.src_lt a ha
      simp only [Fsa.final] at hsl
      simp only [unionArc] at hsrc
      unfold unionState at hsrc
      by_cases hc : s = f.numStates - 1
      · exfalso
        rw [if_pos hc, ← unionBase_len fs h2] at hsrc
        have := unionBase_lt fs h2 j fs.length f' hf' hjl (Nat.le_refl _)
        omega
      · rw [if_neg hc] at hsrc
        rcases Nat.lt_trichotomy i j with hlt | heq | hgt
        · have := unionBase_lt fs h2 i j f hf hlt (by omega)
          omega
        · subst heq
          rw [hf] at hf'
          obtain rfl := Option.some.inj hf'
          exact ⟨a, ha, by omega, rfl⟩
        · have := unionBase_lt fs h2 j i f' hf' hgt (by omega)
          omega
  · rintro ⟨a, ha, rfl, rfl⟩
    refine ⟨(union_mem h _).mpr (Or.inr ⟨i, f, a, hf, ha, rfl⟩), ?_⟩
    have := hfv.src_lt a ha
    simp only [Fsa.final] at this
    simp only [unionArc, unionState]
    rw [if_neg (by omega)]

/-- **C26 (paths).** The accepting paths of the union are, for each operand and each accepting
path of that operand, the new arc followed by the image of the path. -/
theorem union_paths [Zero W] {fs : List (Fsa W)} {g : Fsa W} {m : List Int}
    (h : union fs = some (g, m)) (hv : ∀ f ∈ fs, f.Valid) (p : List (Arc W)) :
    Accepting g p ↔ ∃ i f q, fs[i]? = some f ∧ Accepting f q ∧
      p = unionStartArc fs i :: q.map (unionArc fs i f.numStates) := by
  have h2 : ∀ f ∈ fs, 2 ≤ f.numStates := fun f hf => (hv f hf).two
  have hpos := unionBase_pos fs h2
  have hlen := unionBase_len fs h2
  have hgn := (union_some h).2.1
  have hg2 : 2 ≤ g.numStates := by
    have := hpos fs.length (Nat.le_refl _); omega
  have hst : ∀ i f, fs[i]? = some f → ∀ t, t < f.numStates →
      (unionState fs i f.numStates t = g.final ↔ t = f.final) := by
    intro i f hf t ht
    have hil : i < fs.length := (List.getElem?_eq_some_iff.mp hf).1
    have hb := unionBase_lt fs h2 i fs.length f hf hil (Nat.le_refl _)
    simp only [unionState, Fsa.final, hgn]
    by_cases hc : t = f.numStates - 1
    · simp [hc]
    · rw [if_neg hc]
      constructor
      · intro h; omega
      · intro h; exact absurd h hc
  have hend : ∀ f ∈ fs, ∀ q t, Path f.arcs 0 q t → t < f.numStates := by
    intro f hf q
    have : ∀ s t, s < f.numStates → Path f.arcs s q t → t < f.numStates := by
      induction q with
      | nil => intro s t hs hp; rw [path_nil] at hp; omega
      | cons a q ih =>
        intro s t _ hp
        rw [path_cons] at hp
        exact ih a.dst t ((hv f hf).dst_lt a hp.1) hp.2.2
    intro t; exact this 0 t (by have := h2 f hf; omega)
  constructor
  · rintro ⟨_, hp⟩
    cases p with
    | nil => rw [path_nil] at hp; simp only [Fsa.final] at hp; omega
    | cons b p =>
      rw [path_cons] at hp
      obtain ⟨hb, hsrc, hp⟩ := hp
      rcases (union_mem h b).mp hb with ⟨i, hi, rfl⟩ | ⟨j, f', a, hf', ha, rfl⟩
      · have hf : fs[i]? = some fs[i] := List.getElem?_eq_getElem hi
        obtain ⟨q, t, hq, ht, rfl⟩ := (union_path_inner h hv i fs[i] hf p g.final).mp hp
        have htl := hend _ (List.getElem_mem hi) q t hq
        have htf := (hst i _ hf t htl).mp ht
        subst htf
        exact ⟨i, fs[i], q, hf, ⟨h2 _ (List.getElem_mem hi), hq⟩, rfl⟩
      · exfalso
        have := hpos j (by have := (List.getElem?_eq_some_iff.mp hf').1; omega)
        simp only [unionArc] at hsrc; omega
  · rintro ⟨i, f, q, hf, ⟨hn, hq⟩, rfl⟩
    have hil : i < fs.length := (List.getElem?_eq_some_iff.mp hf).1
    refine ⟨hg2, (path_cons _ _ _ _ _).mpr ⟨(union_mem h _).mpr (Or.inl ⟨i, hil, rfl⟩), rfl, ?_⟩⟩
    refine (union_path_inner h hv i f hf _ g.final).mpr ⟨q, f.final, hq, ?_, rfl⟩
    exact (hst i f hf f.final (by simp only [Fsa.final]; omega)).mpr rfl

/-- Different (operand, path) pairs give different paths of the union, so the number of
accepting paths is the sum over the operands. -/
theorem union_paths_injective [Zero W] {fs : List (Fsa W)} (hv : ∀ f ∈ fs, f.Valid)
    {i j : Nat} {f f' : Fsa W} {q q' : List (Arc W)}
    (hf : fs[i]? = some f) (hf' : fs[j]? = some f')
    (hq : Accepting f q) (hq' : Accepting f' q')
    (he : unionStartArc fs i :: q.map (unionArc fs i f.numStates) =
      unionStartArc fs j :: q'.map (unionArc fs j f'.numStates)) : i = j ∧ q = q' := by
  have h2 : ∀ f ∈ fs, 2 ≤ f.numStates := fun f hf => (hv f hf).two
  have hfm := List.mem_of_getElem? hf
  have hil : i < fs.length := (List.getElem?_eq_some_iff.mp hf).1
  have hjl : j < fs.length := (List.getElem?_eq_some_iff.mp hf').1
  simp only [List.cons.injEq] at he
  obtain ⟨hs, hm⟩ := he
  have hb : unionBase fs i = unionBase fs j := by
    have := congrArg Arc.dst hs; exact this
  have hij : i = j := by
    rcases Nat.lt_trichotomy i j with hlt | heq | hgt
    · have := unionBase_lt fs h2 i j f hf hlt (by omega)
      have := h2 f hfm; omega
    · exact heq
    · have := unionBase_lt fs h2 j i f' hf' hgt (by omega)
      have := h2 f' (List.mem_of_getElem? hf'); omega
  subst hij
  refine ⟨rfl, ?_⟩
  rw [hf] at hf'
  obtain rfl := Option.some.inj hf'
  have hv1 := hv f hfm
  have hbl := unionBase_lt fs h2 i fs.length f hf hil (Nat.le_refl _)
  have hlen := unionBase_len fs h2
  have inj : ∀ a ∈ f.arcs, ∀ b ∈ f.arcs,
      unionArc fs i f.numStates a = unionArc fs i f.numStates b → a = b := by
    intro a ha b hb' hab
    have d1 := hv1.dst_lt a ha
    have d2 := hv1.dst_lt b hb'
    simp only [unionArc, Arc.mk.injEq] at hab
    obtain ⟨e1, e2, e3, e4⟩ := hab
    have hd : a.dst = b.dst := by
      by_cases c1 : a.dst = f.numStates - 1
      · by_cases c2 : b.dst = f.numStates - 1
        · omega
        · rw [if_pos c1, if_neg c2] at e2; omega
      · by_cases c2 : b.dst = f.numStates - 1
        · rw [if_neg c1, if_pos c2] at e2; omega
        · rw [if_neg c1, if_neg c2] at e2; omega
    cases a; cases b; simp only at *
    subst hd e3 e4
    congr 1; omega
  have : ∀ q q' : List (Arc W), (∀ a ∈ q, a ∈ f.arcs) → (∀ a ∈ q', a ∈ f.arcs) →
      q.map (unionArc fs i f.numStates) = q'.map (unionArc fs i f.numStates) → q = q' := by
    intro q
    induction q with
    | nil => intro q' _ _ h; cases q' with
      | nil => rfl
      | cons => simp at h
    | cons a q ih =>
      intro q' h1 h3 h
      cases q' with
      | nil => simp at h
      | cons b q' =>
        simp only [List.map_cons, List.cons.injEq] at h
        have := inj a (h1 a (by simp)) b (h3 b (by simp)) h.1
        rw [this, ih q' (fun x hx => h1 x (by simp [hx])) (fun x hx => h3 x (by simp [hx])) h.2]
  exact this q q' hq.2.2 hq'.2.2 hm

/-- **C26 (language).** The union accepts a string with a score exactly if one of the operands
does. -/
theorem union_accepts [AddMonoid W] {fs : List (Fsa W)} {g : Fsa W} {m : List Int}
    (h : union fs = some (g, m)) (hv : ∀ f ∈ fs, f.Valid) (s : List Int) (w : W) :
    Accepts g s w ↔ ∃ f ∈ fs, Accepts f s w := by
  constructor
  · rintro ⟨p, hp, rfl, rfl⟩
    obtain ⟨i, f, q, hf, hq, rfl⟩ := (union_paths h hv p).mp hp
    refine ⟨f, List.mem_of_getElem? hf, q, hq, ?_, ?_⟩
    · rw [labels_cons, labels_map (unionArc fs i f.numStates) _ (fun _ _ => rfl)]; simp [strip, unionStartArc]
    · rw [score_cons, score_map (unionArc fs i f.numStates) _ (fun _ _ => rfl)]; simp [unionStartArc]
  · rintro ⟨f, hf, q, hq, rfl, rfl⟩
    obtain ⟨i, hi⟩ := List.mem_iff_getElem?.mp hf
    refine ⟨_, (union_paths h hv _).mpr ⟨i, f, q, hi, hq, rfl⟩, ?_, ?_⟩
    · rw [labels_cons, labels_map (unionArc fs i f.numStates) _ (fun _ _ => rfl)]; simp [strip, unionStartArc]
    · rw [score_cons, score_map (unionArc fs i f.numStates) _ (fun _ _ => rfl)]; simp [unionStartArc]

theorem flatten_mapIdx_getElem? {α β : Type} (fs : List α) (g : α → List β) (h : Nat → α → β → β)
    (k : Nat) : ∀ b, ((fs.mapIdx (fun i f => (g f).map (h i f))).flatten)[k]? = some b →
      ∃ a, ((fs.map g).flatten)[k]? = some a ∧ ∃ i f, fs[i]? = some f ∧ b = h i f a := by
  induction fs generalizing k h with
  | nil => intro b hb; simp at hb
  | cons f fs ih =>
    intro b hb
    rw [List.mapIdx_cons, List.flatten_cons] at hb
    by_cases hk : k < (g f).length
    · rw [List.getElem?_append_left (by simpa using hk), List.getElem?_map] at hb
      rw [List.map_cons, List.flatten_cons, List.getElem?_append_left hk,
        List.getElem?_eq_getElem hk]
      rw [List.getElem?_eq_getElem hk] at hb
      exact ⟨_, rfl, 0, f, rfl, by simpa using hb.symm⟩
    · rw [List.getElem?_append_right (by simpa using hk), List.length_map] at hb
      rw [List.map_cons, List.flatten_cons, List.getElem?_append_right (by omega)]
      obtain ⟨a, ha, i, f', hf', e⟩ := ih (fun i => h (i + 1)) (k - (g f).length) b hb
      exact ⟨a, ha, i + 1, f', by simpa using hf', e⟩

/-- **C26 (arc map).** The arc map has one entry per arc of the result.  Each entry is `-1`, for
a new epsilon arc with score 0, or the position of an input arc with the same label and score. -/
theorem union_arcMap [Zero W] {fs : List (Fsa W)} {g : Fsa W} {m : List Int}
    (h : union fs = some (g, m)) :
    m.length = g.arcs.length ∧ ∀ (k : Nat) (b : Arc W), g.arcs[k]? = some b →
      (m[k]? = some (-1) ∧ b.label = 0 ∧ b.score = 0 ∧ b.src = 0) ∨
      ∃ (j : Nat) (a : Arc W), m[k]? = some (j : Int) ∧ ((fs.map Fsa.arcs).flatten)[j]? = some a ∧
        b.label = a.label ∧ b.score = a.score := by
  obtain ⟨_, _, ha, rfl⟩ := union_some h
  have hl : (fs.mapIdx (fun i f => f.arcs.map (unionArc fs i f.numStates))).flatten.length
      = (fs.map (fun f => f.arcs.length)).sum := by
    rw [List.length_flatten]
    congr 1
    apply List.ext_getElem?
    intro i
    simp only [List.getElem?_map, List.getElem?_mapIdx, Option.map_map]
    congr 1; funext f; simp
  constructor
  · rw [ha]; simp only [unionArcMap, List.length_append, hl, List.length_map, List.length_replicate,
      List.length_range]
  · intro k b hb
    rw [ha] at hb
    by_cases hk : k < fs.length
    · left
      rw [List.getElem?_append_left (by simpa using hk)] at hb
      simp only [List.getElem?_map, List.getElem?_range hk, Option.map_some,
        Option.some.injEq] at hb
      subst hb
      refine ⟨?_, rfl, rfl, rfl⟩
      rw [unionArcMap, List.getElem?_append_left (by simpa using hk)]
      simp [hk]
    · right
      rw [List.getElem?_append_right (by simpa using hk), List.length_map, List.length_range] at hb
      obtain ⟨a, ha', i, f, _, rfl⟩ :=
        flatten_mapIdx_getElem? fs Fsa.arcs (fun i f a => unionArc fs i f.numStates a) _ b hb
      refine ⟨k - fs.length, a, ?_, ha', rfl, rfl⟩
      rw [unionArcMap, List.getElem?_append_right (by simpa using hk), List.length_replicate]
      have : k - fs.length < (fs.map (fun f => f.arcs.length)).sum := by
        rw [← hl]; exact (List.getElem?_eq_some_iff.mp hb).1
      simp [List.getElem?_map, List.getElem?_range this]

/-- The union of valid FSAs is valid. -/
theorem union_valid [Zero W] {fs : List (Fsa W)} {g : Fsa W} {m : List Int}
    (h : union fs = some (g, m)) (hv : ∀ f ∈ fs, f.Valid) : g.Valid := by
  have h2 : ∀ f ∈ fs, 2 ≤ f.numStates := fun f hf => (hv f hf).two
  have hpos := unionBase_pos fs h2
  have hlen := unionBase_len fs h2
  obtain ⟨_, hgn, hga, _⟩ := union_some h
  have hp := hpos fs.length (Nat.le_refl _)
  have hmem := union_mem h
  refine ⟨by omega, ?_, ?_, ?_, ?_⟩
  · unfold Fsa.Sorted
    rw [hga, List.pairwise_append]
    refine ⟨?_, ?_, ?_⟩
    · rw [List.pairwise_map]
      exact List.pairwise_lt_range.imp (fun _ => Nat.le_refl 0)
    · rw [List.pairwise_flatten]
      constructor
      · intro l hl
        obtain ⟨i, hi, rfl⟩ := List.mem_mapIdx.mp hl
        rw [List.pairwise_map]
        exact (hv _ (List.getElem_mem hi)).sorted.imp (fun h => by simp only [unionArc]; omega)
      · rw [List.pairwise_iff_getElem]
        intro i j hi hj hij a ha b hb
        simp only [List.length_mapIdx] at hi hj
        simp only [List.getElem_mapIdx, List.mem_map] at ha hb
        obtain ⟨a, ha, rfl⟩ := ha
        obtain ⟨b, hb, rfl⟩ := hb
        have h1 := (hv _ (List.getElem_mem hi)).src_lt a ha
        have h3 := unionBase_lt fs h2 i j _ (List.getElem?_eq_getElem hi) hij (by omega)
        simp only [Fsa.final] at h1
        simp only [unionArc]; omega
    · intro a ha b _
      obtain ⟨i, _, rfl⟩ := List.mem_map.mp ha
      exact Nat.zero_le _
  · intro b hb
    simp only [Fsa.final]
    rcases (hmem b).mp hb with ⟨i, hi, rfl⟩ | ⟨i, f, a, hf, ha, rfl⟩
    · simp only [unionStartArc]; omega
    · have h1 := (hv _ (List.mem_of_getElem? hf)).src_lt a ha
      have hil : i < fs.length := (List.getElem?_eq_some_iff.mp hf).1
      have h3 := unionBase_lt fs h2 i _ f hf hil (Nat.le_refl _)
      simp only [Fsa.final] at h1
      simp only [unionArc]; omega
  · intro b hb
    rcases (hmem b).mp hb with ⟨i, hi, rfl⟩ | ⟨i, f, a, hf, ha, rfl⟩
    · have h3 := unionBase_lt fs h2 i _ _ (List.getElem?_eq_getElem hi) hi (Nat.le_refl _)
      simp only [unionStartArc]; omega
    · have h1 := (hv _ (List.mem_of_getElem? hf)).dst_lt a ha
      have hil : i < fs.length := (List.getElem?_eq_some_iff.mp hf).1
      have h3 := unionBase_lt fs h2 i _ f hf hil (Nat.le_refl _)
      simp only [unionArc]; split <;> omega
  · intro b hb
    simp only [Fsa.final]
    rcases (hmem b).mp hb with ⟨i, hi, rfl⟩ | ⟨i, f, a, hf, ha, rfl⟩
    · have h3 := unionBase_lt fs h2 i _ _ (List.getElem?_eq_getElem hi) hi (Nat.le_refl _)
      have h4 := h2 _ (List.getElem_mem hi)
      simp only [unionStartArc]
      constructor
      · intro h; omega
      · intro h; omega
    · have hfi := (hv _ (List.mem_of_getElem? hf)).final_iff a ha
      have h1 := (hv _ (List.mem_of_getElem? hf)).dst_lt a ha
      have hil : i < fs.length := (List.getElem?_eq_some_iff.mp hf).1
      have h3 := unionBase_lt fs h2 i _ f hf hil (Nat.le_refl _)
      simp only [unionArc]
      rw [hfi, Fsa.final]
      by_cases hc : a.dst = f.numStates - 1
      · simp [hc, hgn]
      · rw [if_neg hc]
        constructor
        · intro h; exact absurd h hc
        · intro h; omega

/-- A concrete union of two FSAs meets the hypotheses. -/
example : ∃ g m, union [⟨2, [⟨0, 1, -1, (5 : Int)⟩]⟩,
      ⟨3, [⟨0, 1, 7, 1⟩, ⟨0, 2, -1, 3⟩, ⟨1, 1, 4, 1⟩, ⟨1, 2, -1, 2⟩]⟩] = some (g, m) ∧
    g = ⟨5, [⟨0, 1, 0, 0⟩, ⟨0, 2, 0, 0⟩, ⟨1, 4, -1, 5⟩, ⟨2, 3, 7, 1⟩, ⟨2, 4, -1, 3⟩,
      ⟨3, 3, 4, 1⟩, ⟨3, 4, -1, 2⟩]⟩ ∧ m = [-1, -1, 0, 1, 2, 3, 4] := by
  exact ⟨_, _, rfl, by decide +kernel, by decide +kernel⟩

/-- **Disagreement.** A valid operand without arcs (which accepts nothing) makes the result
undefined, although the union of the languages is well defined. -/
theorem union_undefined_on_empty_operand :
    ∃ fs : List (Fsa Int), (∀ f ∈ fs, f.Valid) ∧ union fs = none := by
  refine ⟨[⟨2, []⟩], ?_, by decide⟩
  intro f hf
  simp only [List.mem_singleton] at hf
  subst hf
  exact ⟨by decide, List.Pairwise.nil, by simp, by simp, by simp⟩

end Verif.Fsa
