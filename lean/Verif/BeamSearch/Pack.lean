import Verif.BeamSearch.Model

/-! Packed sequences, and greedy search. -/

namespace Verif.BeamSearch

/-- The length of utterance `k`. -/
def len (lens : List Nat) (k : Nat) : Nat := lens.getD k 0

/-- `sorted` lists the utterances by decreasing length. -/
def IsSorted (lens sorted : List Nat) : Prop :=
  sorted.Perm (List.range lens.length) ∧ sorted.Pairwise fun a b => len lens b ≤ len lens a

theorem take_countP {α : Type} (f : α → Nat) (t : Nat) (l : List α)
    (h : l.Pairwise fun a b => f b ≤ f a) :
    (∀ k ∈ l.take (l.countP (t < f ·)), t < f k) ∧
      ∀ k ∈ l.drop (l.countP (t < f ·)), f k ≤ t := by
  induction l with
  | nil => simp
  | cons a l ih =>
    simp only [List.pairwise_cons] at h
    obtain ⟨h1, h2⟩ := ih h.2
    by_cases ht : t < f a
    · rw [List.countP_cons_of_pos (by simpa using ht)]
      simp only [List.take_succ_cons, List.drop_succ_cons]
      refine ⟨?_, h2⟩
      intro k hk
      rcases List.mem_cons.1 hk with rfl | hk
      · exact ht
      · exact h1 k hk
    · have hz : l.countP (t < f ·) = 0 := by
        rw [List.countP_eq_zero]
        intro x hx
        have := h.1 x hx
        simp only [decide_eq_true_eq]
        omega
      rw [List.countP_cons_of_neg (by simpa using ht), hz]
      refine ⟨by simp, ?_⟩
      intro k hk
      simp only [List.drop_zero, List.mem_cons] at hk
      rcases hk with rfl | hk
      · omega
      · have := h.1 k hk
        omega

theorem map_range_getD (lens : List Nat) : (List.range lens.length).map (len lens) = lens := by
  apply List.ext_getElem
  · simp
  · intro i h1 h2
    simp [len, h2]

theorem batchSize_eq {lens sorted : List Nat} (h : IsSorted lens sorted) (t : Nat) :
    batchSize lens t = sorted.countP (t < len lens ·) := by
  rw [h.1.countP_eq]
  conv_lhs => rw [batchSize, ← map_range_getD lens]
  rw [List.countP_map]
  rfl

theorem mem_take_batch {lens sorted : List Nat} (h : IsSorted lens sorted) (t : Nat) {k : Nat}
    (hk : k ∈ sorted.take (batchSize lens t)) : t < len lens k := by
  rw [batchSize_eq h] at hk
  exact (take_countP (len lens) t sorted h.2).1 k hk

theorem mem_drop_batch {lens sorted : List Nat} (h : IsSorted lens sorted) (t : Nat) {k : Nat}
    (hk : k ∈ sorted.drop (batchSize lens t)) : len lens k ≤ t := by
  rw [batchSize_eq h] at hk
  exact (take_countP (len lens) t sorted h.2).2 k hk

theorem batchSize_le (lens : List Nat) (t : Nat) : batchSize lens t ≤ lens.length :=
  List.countP_le_length

theorem batchSize_anti (lens : List Nat) (t : Nat) : batchSize lens (t + 1) ≤ batchSize lens t := by
  apply List.countP_mono_left
  intro x _ hx
  simp only [decide_eq_true_eq] at hx ⊢
  omega

theorem len_le (lens : List Nat) (k : Nat) : len lens k ≤ numBatches lens := by
  induction lens generalizing k with
  | nil => simp [len]
  | cons a l ih =>
    simp only [numBatches, List.foldr_cons]
    cases k with
    | zero => simp only [len, List.getD_cons_zero]; omega
    | succ k =>
      have := ih k
      simp only [len, List.getD_cons_succ, numBatches] at this ⊢
      omega

theorem IsSorted.length {lens sorted : List Nat} (h : IsSorted lens sorted) :
    sorted.length = lens.length := by
  simpa using h.1.length_eq

theorem IsSorted.idxOf {lens sorted : List Nat} (h : IsSorted lens sorted) {i : Nat}
    (hi : i < lens.length) : sorted[sorted.idxOf i]? = some i := by
  have hm : i ∈ sorted := h.1.mem_iff.2 (by simpa using hi)
  have hlt := List.idxOf_lt_length_iff.2 hm
  rw [List.getElem?_eq_getElem hlt, List.getElem_idxOf]

variable {F D P : Type}

/-- The last tokens of a sequence, without a check. -/
def lastTokens (c : Nat) (ys : List Nat) : List Nat := ys.drop (ys.length - c)

theorem context_eq {c : Nat} {ys : List Nat} (h : c ≤ ys.length) :
    context c ys = some (lastTokens c ys) := by
  simp [context, h, lastTokens]

/-- Greedy search for one utterance with the frames `fs`: in each frame, the best token given the
last `ctx` tokens of the hypothesis is appended, unless it is blank or unk. -/
def greedyHyp (net : Net F D P) (argmax : List P → Nat) (fs : List F) : List Nat :=
  fs.foldl (fun ys f => emit net ys (argmax (net.join f (net.decode (lastTokens net.ctx ys)))))
    (List.replicate net.ctx net.blank)

theorem emit_length (net : Net F D P) (ys : List Nat) (t : Nat) :
    ys.length ≤ (emit net ys t).length := by
  simp only [emit]
  split
  · simp
  · exact Nat.le_refl _

theorem foldl_emit_length (net : Net F D P) (g : List Nat → F → Nat) (fs : List F) (ys : List Nat) :
    ys.length ≤ (fs.foldl (fun ys f => emit net ys (g ys f)) ys).length := by
  induction fs generalizing ys with
  | nil => exact Nat.le_refl _
  | cons f fs ih => exact Nat.le_trans (emit_length net ys _) (ih _)

theorem greedyHyp_length (net : Net F D P) (argmax : List P → Nat) (fs : List F) :
    net.ctx ≤ (greedyHyp net argmax fs).length := by
  have := foldl_emit_length net (fun ys f => argmax (net.join f (net.decode (lastTokens net.ctx ys))))
    fs (List.replicate net.ctx net.blank)
  rw [List.length_replicate] at this
  exact this

/-- The hypothesis of utterance `k` after `j` frames. -/
def hypAt (net : Net F D P) (argmax : List P → Nat) (enc : Nat → Nat → F) (k j : Nat) : List Nat :=
  greedyHyp net argmax ((List.range j).map (enc k))

theorem hypAt_succ (net : Net F D P) (argmax : List P → Nat) (enc : Nat → Nat → F) (k j : Nat) :
    hypAt net argmax enc k (j + 1) = emit net (hypAt net argmax enc k j)
      (argmax (net.join (enc k j) (net.decode (lastTokens net.ctx (hypAt net argmax enc k j))))) := by
  simp only [hypAt, greedyHyp, List.range_succ, List.map_append, List.foldl_append, List.map_cons,
    List.map_nil, List.foldl_cons, List.foldl_nil]

theorem mapM_some {α β : Type} (f : α → Option β) (g : α → β) (l : List α)
    (h : ∀ x ∈ l, f x = some (g x)) : l.mapM f = some (l.map g) := by
  induction l with
  | nil => rfl
  | cons a l ih =>
    rw [List.mapM_cons, h a (by simp), ih (fun x hx => h x (List.mem_cons_of_mem _ hx))]
    rfl

theorem packedRow_length {enc : Nat → Nat → F} {lens sorted : List Nat} (h : IsSorted lens sorted)
    (t : Nat) : (packedRow enc lens sorted t).length = batchSize lens t := by
  have := batchSize_le lens t
  simp only [packedRow, List.length_map, List.length_take, h.length]
  omega

theorem zipWith_map_map {α β γ δ : Type} (f : β → γ → δ) (g : α → β) (h : α → γ) (l : List α) :
    List.zipWith f (l.map g) (l.map h) = l.map fun x => f (g x) (h x) := by
  induction l with
  | nil => rfl
  | cons a l ih => simp [ih]

structure GInv (net : Net F D P) (argmax : List P → Nat) (enc : Nat → Nat → F)
    (lens sorted : List Nat) (t m : Nat) (st : Greedy F D) : Prop where
  rest : st.rest = (List.range' t m).flatMap (packedRow enc lens sorted)
  hyps : st.hyps = sorted.map fun k => hypAt net argmax enc k (min t (len lens k))
  rows : batchSize lens t ≤ st.rows
  dec : ∃ d, batchSize lens t ≤ d ∧ d ≤ lens.length ∧
    st.decOut = (sorted.take d).map fun k => net.decode (lastTokens net.ctx (hypAt net argmax enc k t))

theorem greedy_step {net : Net F D P} {argmax : List P → Nat} {enc : Nat → Nat → F}
    {lens sorted : List Nat} (hs : IsSorted lens sorted) {t m : Nat} {st : Greedy F D}
    (h : GInv net argmax enc lens sorted t (m + 1) st) :
    ∃ st', Greedy.step net argmax st (batchSize lens t) = some st' ∧
      GInv net argmax enc lens sorted (t + 1) m st' := by
  have hcb := batchSize_le lens t
  have hlen := hs.length
  obtain ⟨d, hd1, hd2, hdec⟩ := h.dec
  have hrest : st.rest = packedRow enc lens sorted t ++
      (List.range' (t + 1) m).flatMap (packedRow enc lens sorted) := by
    rw [h.rest, List.range'_succ, List.flatMap_cons]
  have hcur : st.rest.take (batchSize lens t) = packedRow enc lens sorted t := by
    rw [hrest, ← packedRow_length (enc := enc) hs t, List.take_left]
  have hdrop : st.rest.drop (batchSize lens t) =
      (List.range' (t + 1) m).flatMap (packedRow enc lens sorted) := by
    rw [hrest, ← packedRow_length (enc := enc) hs t, List.drop_left]
  have hdo : (if batchSize lens t < st.decOut.length then st.decOut.take (batchSize lens t)
      else st.decOut) = (sorted.take (batchSize lens t)).map fun k =>
        net.decode (lastTokens net.ctx (hypAt net argmax enc k t)) := by
    have hdl : st.decOut.length = d := by
      rw [hdec, List.length_map, List.length_take]; omega
    split
    · rw [hdec, ← List.map_take, List.take_take, Nat.min_eq_left hd1]
    · have : d = batchSize lens t := by omega
      rw [hdec, this]
  obtain ⟨maxi, hmaxi⟩ : ∃ maxi, maxi = (sorted.take (batchSize lens t)).map fun k =>
    argmax (net.join (enc k t) (net.decode (lastTokens net.ctx (hypAt net argmax enc k t)))) := ⟨_, rfl⟩
  have hmx : (List.zipWith net.join (packedRow enc lens sorted t)
      ((sorted.take (batchSize lens t)).map fun k =>
        net.decode (lastTokens net.ctx (hypAt net argmax enc k t)))).map argmax = maxi := by
    rw [packedRow, zipWith_map_map, List.map_map, hmaxi]
    rfl
  have hA : ∀ k ∈ sorted.take (batchSize lens t), t < len lens k := fun k hk => mem_take_batch hs t hk
  have hB : ∀ k ∈ sorted.drop (batchSize lens t), len lens k ≤ t := fun k hk => mem_drop_batch hs t hk
  obtain ⟨hyps', hh'⟩ : ∃ hyps', hyps' =
    List.zipWith (emit net) (st.hyps.take (batchSize lens t)) maxi ++ st.hyps.drop (batchSize lens t) :=
    ⟨_, rfl⟩
  have hhyps : hyps' = sorted.map fun k => hypAt net argmax enc k (min (t + 1) (len lens k)) := by
    rw [hh', h.hyps, ← List.map_take, ← List.map_drop, hmaxi, zipWith_map_map]
    conv_rhs => rw [← List.take_append_drop (batchSize lens t) sorted, List.map_append]
    congr 1
    · apply List.map_congr_left
      intro k hk
      have := hA k hk
      rw [Nat.min_eq_left (by omega), Nat.min_eq_left (by omega), hypAt_succ]
    · apply List.map_congr_left
      intro k hk
      have := hB k hk
      rw [Nat.min_eq_right (by omega), Nat.min_eq_right (by omega)]
  have hhl : hyps'.length = lens.length := by rw [hhyps, List.length_map, hlen]
  have hshl : st.hyps.length = lens.length := by rw [h.hyps, List.length_map, hlen]
  simp only [Greedy.step]
  rw [hcur, hdrop, hdo, hmx, ← hh']
  rw [if_neg (by
    simp only [packedRow_length hs, List.length_map, List.length_take]
    omega)]
  have hanti := batchSize_anti lens t
  split
  · have hrows : (if batchSize lens t < st.rows then batchSize lens t else st.rows) =
        batchSize lens t := by
      have := h.rows
      split <;> omega
    rw [hrows, if_neg (by omega)]
    have htk : hyps'.take (batchSize lens t) = (sorted.take (batchSize lens t)).map fun k =>
        hypAt net argmax enc k (t + 1) := by
      rw [hhyps, ← List.map_take]
      apply List.map_congr_left
      intro k hk
      have := hA k hk
      rw [Nat.min_eq_left (by omega)]
    rw [htk, mapM_some (context net.ctx) (lastTokens net.ctx) _ (by
      intro x hx
      obtain ⟨k, _, rfl⟩ := List.mem_map.1 hx
      exact context_eq (greedyHyp_length net argmax _))]
    refine ⟨_, rfl, ⟨rfl, hhyps, hanti, batchSize lens t, hanti, hcb, ?_⟩⟩
    simp only [List.map_map]
    rfl
  · next hany =>
    refine ⟨_, rfl, ⟨rfl, hhyps, by have := h.rows; simp only; omega, batchSize lens t, hanti, hcb, ?_⟩⟩
    simp only
    apply List.map_congr_left
    intro k hk
    rw [hypAt_succ]
    have : ¬ (argmax (net.join (enc k t) (net.decode (lastTokens net.ctx (hypAt net argmax enc k t)))) ≠
        net.blank ∧ argmax (net.join (enc k t) (net.decode (lastTokens net.ctx
          (hypAt net argmax enc k t)))) ≠ net.unk) := by
      intro hc
      apply hany
      rw [List.any_eq_true]
      exact ⟨_, by rw [hmaxi]; exact List.mem_map.2 ⟨k, hk, rfl⟩, by simpa using hc⟩
    simp only [emit]
    rw [if_neg this]

theorem greedy_loop {net : Net F D P} {argmax : List P → Nat} {enc : Nat → Nat → F}
    {lens sorted : List Nat} (hs : IsSorted lens sorted) (m : Nat) : ∀ (t : Nat) (st : Greedy F D),
    GInv net argmax enc lens sorted t m st →
    ∃ st', ((List.range' t m).map (batchSize lens)).foldlM (Greedy.step net argmax) st = some st' ∧
      GInv net argmax enc lens sorted (t + m) 0 st' := by
  induction m with
  | zero => intro t st h; exact ⟨st, rfl, h⟩
  | succ m ih =>
    intro t st h
    obtain ⟨st1, h1, h2⟩ := greedy_step hs h
    obtain ⟨st2, h3, h4⟩ := ih (t + 1) st1 h2
    refine ⟨st2, ?_, by rw [show t + (m + 1) = t + 1 + m by omega]; exact h4⟩
    rw [List.range'_succ, List.map_cons, List.foldlM_cons, h1]
    exact h3

/-- Greedy search over a batch is greedy search over each utterance. -/
theorem greedySearch_eq (net : Net F D P) (argmax : List P → Nat) (enc : Nat → Nat → F)
    {lens sorted : List Nat} (hs : IsSorted lens sorted) :
    greedySearch net argmax enc lens sorted = some ((List.range lens.length).map fun i =>
      (greedyHyp net argmax ((List.range (len lens i)).map (enc i))).drop net.ctx) := by
  have hlen := hs.length
  have hblank : ∀ k, hypAt net argmax enc k 0 = List.replicate net.ctx net.blank := fun k => rfl
  have hl : lastTokens net.ctx (List.replicate net.ctx net.blank) =
      List.replicate net.ctx net.blank := by simp [lastTokens]
  have hconst : ∀ {α : Type} (x : α), List.replicate lens.length x = sorted.map fun _ => x := by
    intro α x
    rw [List.map_const', hlen]
  obtain ⟨st, h1, h2⟩ := greedy_loop (net := net) (argmax := argmax) (enc := enc) hs (numBatches lens) 0
    ⟨packedData enc lens sorted, List.replicate lens.length (List.replicate net.ctx net.blank),
      lens.length, List.replicate lens.length (net.decode (List.replicate net.ctx net.blank))⟩
    ⟨by simp only [packedData, List.range_eq_range'], by
      simp only [Nat.zero_min, hblank]
      exact hconst _, batchSize_le lens 0, lens.length, batchSize_le lens 0, Nat.le_refl _, by
      simp only [hblank, hl]
      rw [List.take_of_length_le (by omega)]
      exact hconst _⟩
  simp only [greedySearch, batchSizes]
  rw [List.range_eq_range', h1]
  simp only
  rw [mapM_some _ (fun i => (greedyHyp net argmax ((List.range (len lens i)).map (enc i))).drop net.ctx)]
  · intro i hi
    have hi' : i < lens.length := by simpa using hi
    rw [h2.hyps, List.getElem?_map, hs.idxOf hi']
    have := len_le lens i
    simp only [Option.map_some, Nat.zero_add, Nat.min_eq_right this, hypAt]

end Verif.BeamSearch
