import Verif.Fsa.Ops.InvertProps

/-!
# `Fsa.invert_` for tensor aux labels (k2/python/k2/fsa.py 924-951)

The labels and the aux labels of the arcs are exchanged by three renames, then `fix_final_labels`
repairs the placement of -1 or fails.
-/

namespace Verif.Fsa
variable {W : Type}

/-- One thread of `FixFinalLabels`, k2/csrc/fsa_utils.cu 2767-2782: `none` is the failing
`K2_CHECK_EQ`. -/
def fixLabel (numStates dst : Nat) (x : Int) : Option Int :=
  if dst + 1 = numStates then (if x = -1 ∨ x = 0 then some (-1) else none)
  else some (if x = -1 then 0 else x)

/-- `invert_`, fsa.py 945-948.  The scores and the states do not change. -/
def invertTensor (f : Fsa W) (aux : List Int) : Option (Fsa W × List Int) := do
  let arcs ← (f.arcs.zip aux).mapM (fun x =>
    (fixLabel f.numStates x.1.dst x.2).map (fun l => ({ x.1 with label := l } : Arc W)))
  pure (⟨f.numStates, arcs⟩, f.arcs.map Arc.label)

/-- Aux labels of a path. -/
def tattrs (aux : List Int) (ip : List (Nat × Arc W)) : List Int :=
  ip.map (fun x => aux.getD x.1 0)

theorem mapM_get {α β : Type} (l : List α) (g : α → Option β) (r : List β) (h : l.mapM g = some r)
    (i : Nat) : r[i]? = (l[i]?).bind g := by
  induction l generalizing r i with
  | nil => simp at h; subst h; simp
  | cons a l ih =>
    rw [List.mapM_cons] at h
    cases ha : g a with
    | none => simp [ha] at h
    | some b =>
      cases hl : l.mapM g with
      | none => simp [ha, hl] at h
      | some r' =>
        simp [ha, hl] at h
        subst h
        cases i with
        | zero => simp [ha]
        | succ i => simpa using ih r' hl i

theorem mapM_isSome {α β : Type} (l : List α) (g : α → Option β) :
    (l.mapM g).isSome ↔ ∀ a ∈ l, (g a).isSome := by
  induction l with
  | nil => simp
  | cons a l ih =>
    rw [List.mapM_cons]
    cases ha : g a with
    | none => simp [ha]
    | some b =>
      cases hl : l.mapM g with
      | none => simp [hl] at ih ⊢; simp [ha]; exact ih
      | some r' => simp [hl] at ih ⊢; simpa [ha] using ih

/-- The call succeeds exactly if the aux label of every arc entering the final state is 0 or -1. -/
theorem invertTensor_defined (f : Fsa W) (aux : List Int) (hl : aux.length = f.arcs.length) :
    (invertTensor f aux).isSome ↔
      ∀ (i : Nat) (a : Arc W) (x : Int), f.arcs[i]? = some a → aux[i]? = some x →
        a.dst + 1 = f.numStates → x = 0 ∨ x = -1 := by
  have h1 : (invertTensor f aux).isSome ↔ ((f.arcs.zip aux).mapM (fun x =>
      (fixLabel f.numStates x.1.dst x.2).map
        (fun l => ({ x.1 with label := l } : Arc W)))).isSome := by
    unfold invertTensor
    cases (f.arcs.zip aux).mapM (fun x =>
      (fixLabel f.numStates x.1.dst x.2).map (fun l => ({ x.1 with label := l } : Arc W))) <;> simp
  rw [h1, mapM_isSome]
  have h2 : ∀ y : Arc W × Int, y ∈ f.arcs.zip aux ↔
      ∃ i : Nat, f.arcs[i]? = some y.1 ∧ aux[i]? = some y.2 := by
    intro y
    rw [List.mem_iff_getElem?]
    simp only [List.getElem?_zip_eq_some]
  constructor
  · intro h i a x ha hx hd
    have := h (a, x) ((h2 _).mpr ⟨i, ha, hx⟩)
    simp only [Option.isSome_map, fixLabel, hd, if_true] at this
    by_cases hc : x = -1 ∨ x = 0
    · exact hc.symm
    · simp [hc] at this
  · intro h y hy
    obtain ⟨i, ha, hx⟩ := (h2 y).mp hy
    simp only [Option.isSome_map, fixLabel]
    by_cases hd : y.1.dst + 1 = f.numStates
    · have := h i _ _ ha hx hd
      rw [if_pos hd, if_pos this.symm]; rfl
    · rw [if_neg hd]; rfl

theorem invertTensor_arcs (f g : Fsa W) (aux aux' : List Int)
    (h : invertTensor f aux = some (g, aux')) :
    g.numStates = f.numStates ∧ aux' = f.arcs.map Arc.label ∧
    ∀ i : Nat, g.arcs[i]? = (f.arcs[i]?).bind (fun a => (aux[i]?).bind (fun x =>
      (fixLabel f.numStates a.dst x).map (fun l => ({ a with label := l } : Arc W)))) := by
  unfold invertTensor at h
  cases hm : (f.arcs.zip aux).mapM (fun x =>
      (fixLabel f.numStates x.1.dst x.2).map (fun l => ({ x.1 with label := l } : Arc W))) with
  | none => rw [hm] at h; simp at h
  | some arcs =>
    rw [hm] at h
    simp only [Option.pure_def, Option.bind_eq_bind, Option.bind_some, Option.some.injEq,
      Prod.mk.injEq] at h
    obtain ⟨rfl, rfl⟩ := h
    refine ⟨rfl, rfl, fun i => ?_⟩
    rw [mapM_get _ _ _ hm i]
    rw [List.zip, List.getElem?_zipWith]
    cases f.arcs[i]? <;> cases aux[i]? <;> rfl

/-- The arcs of input and output, position by position. -/
theorem invertTensor_get (f g : Fsa W) (aux aux' : List Int) (hl : aux.length = f.arcs.length)
    (h : invertTensor f aux = some (g, aux')) (i : Nat) (b : Arc W) :
    g.arcs[i]? = some b ↔ ∃ a x l, f.arcs[i]? = some a ∧ aux[i]? = some x ∧
      fixLabel f.numStates a.dst x = some l ∧ b = { a with label := l } := by
  obtain ⟨_, _, h3⟩ := invertTensor_arcs f g aux aux' h
  rw [h3 i]
  simp only [Option.bind_eq_some_iff, Option.map_eq_some_iff]
  constructor
  · rintro ⟨a, ha, x, hx, l, hl, rfl⟩; exact ⟨a, x, l, ha, hx, hl, rfl⟩
  · rintro ⟨a, x, l, ha, hx, hl, rfl⟩; exact ⟨a, ha, x, hx, l, hl, rfl⟩

theorem invertTensor_length (f g : Fsa W) (aux aux' : List Int) (hl : aux.length = f.arcs.length)
    (h : invertTensor f aux = some (g, aux')) : g.arcs.length = f.arcs.length := by
  unfold invertTensor at h
  cases hm : (f.arcs.zip aux).mapM (fun x =>
      (fixLabel f.numStates x.1.dst x.2).map (fun l => ({ x.1 with label := l } : Arc W))) with
  | none => rw [hm] at h; simp at h
  | some arcs =>
    rw [hm] at h
    simp only [Option.pure_def, Option.bind_eq_bind, Option.bind_some, Option.some.injEq,
      Prod.mk.injEq] at h
    obtain ⟨rfl, rfl⟩ := h
    have key : ∀ i : Nat, i < arcs.length ↔ i < f.arcs.length := by
      intro i
      have := mapM_get _ _ _ hm i
      constructor
      · intro hi
        rw [List.getElem?_eq_getElem hi] at this
        obtain ⟨y, hy, _⟩ := Option.bind_eq_some_iff.mp this.symm
        exact (List.getElem?_eq_some_iff.mp ((List.getElem?_zip_eq_some.mp hy).1)).1
      · intro hi
        have hz : (f.arcs.zip aux)[i]? = some (f.arcs[i], aux[i]) :=
          List.getElem?_zip_eq_some.mpr ⟨List.getElem?_eq_getElem hi, List.getElem?_eq_getElem (by omega)⟩
        have hs := (mapM_isSome (f.arcs.zip aux) _).mp (by rw [hm]; rfl) _ (List.mem_of_getElem? hz)
        rw [hz, Option.bind_some] at this
        rw [← this] at hs
        by_contra hn
        rw [List.getElem?_eq_none (by omega)] at hs
        simp at hs
    rcases Nat.lt_trichotomy arcs.length f.arcs.length with h1 | h1 | h1
    · have := (key arcs.length).mpr h1; omega
    · exact h1
    · have := (key f.arcs.length).mp h1; omega

theorem fixLabel_final {n d : Nat} {x l : Int} (h : fixLabel n d x = some l) :
    (l = -1 ↔ d + 1 = n) ∧ strip [l] = strip [x] := by
  unfold fixLabel at h
  by_cases hd : d + 1 = n
  · rw [if_pos hd] at h
    by_cases hx : x = -1 ∨ x = 0
    · rw [if_pos hx] at h
      obtain rfl := Option.some.inj h
      rcases hx with rfl | rfl <;> simp [hd, strip]
    · rw [if_neg hx] at h; simp at h
  · rw [if_neg hd] at h
    obtain rfl := Option.some.inj h
    by_cases hx : x = -1
    · subst hx; simp [hd, strip]
    · simp [hx, hd]

/-- A successful call returns a valid FSA: -1 is exactly on the arcs entering the final state. -/
theorem invertTensor_valid (f g : Fsa W) (hf : f.Valid) (aux aux' : List Int)
    (hl : aux.length = f.arcs.length) (h : invertTensor f aux = some (g, aux')) : g.Valid := by
  obtain ⟨hn, _, _⟩ := invertTensor_arcs f g aux aux' h
  have h2 := hf.two
  have hlen := invertTensor_length f g aux aux' hl h
  have hmem : ∀ b ∈ g.arcs, ∃ a ∈ f.arcs, b.src = a.src ∧ b.dst = a.dst ∧
      (b.label = -1 ↔ a.dst + 1 = f.numStates) := by
    intro b hb
    obtain ⟨i, hi⟩ := List.mem_iff_getElem?.mp hb
    obtain ⟨a, x, l, ha, hx, hfix, rfl⟩ := (invertTensor_get f g aux aux' hl h i b).mp hi
    exact ⟨a, List.mem_of_getElem? ha, rfl, rfl, (fixLabel_final hfix).1⟩
  have hfin : g.final = f.final := by simp only [Fsa.final, hn]
  refine ⟨by omega, ?_, ?_, ?_, ?_⟩
  · have hs := hf.sorted
    unfold Fsa.Sorted at hs ⊢
    rw [List.pairwise_iff_getElem] at hs ⊢
    intro i j hi hj hij
    have e : ∀ k (hk : k < g.arcs.length), (g.arcs[k]).src = (f.arcs[k]'(by omega)).src := by
      intro k hk
      obtain ⟨a, x, l, ha, _, _, hb⟩ :=
        (invertTensor_get f g aux aux' hl h k _).mp (List.getElem?_eq_getElem hk)
      rw [hb]
      obtain ⟨_, rfl⟩ := List.getElem?_eq_some_iff.mp ha
      rfl
    rw [e i hi, e j hj]
    exact hs i j (by omega) (by omega) hij
  · intro b hb
    obtain ⟨a, ha, h1, _, _⟩ := hmem b hb
    rw [h1, hfin]; exact hf.src_lt a ha
  · intro b hb
    obtain ⟨a, ha, _, h1, _⟩ := hmem b hb
    rw [h1, hn]; exact hf.dst_lt a ha
  · intro b hb
    obtain ⟨a, ha, _, h1, h3⟩ := hmem b hb
    rw [h3, h1, hfin]
    simp only [Fsa.final]
    omega

/-- Path by path the two strings are exchanged; positions and scores stay. -/
theorem invertTensor_paths [Add W] [Zero W] (f g : Fsa W) (aux aux' : List Int)
    (hl : aux.length = f.arcs.length) (h : invertTensor f aux = some (g, aux'))
    (is : List Nat) :
    (∃ jp, PPath g jp ∧ jp.map Prod.fst = is) ↔ (∃ ip, PPath f ip ∧ ip.map Prod.fst = is) := by
  obtain ⟨hn, _, _⟩ := invertTensor_arcs f g aux aux' h
  have hfin : g.final = f.final := by simp only [Fsa.final, hn]
  have hlen := invertTensor_length f g aux aux' hl h
  -- same positions, same end points
  have hsame : ∀ (i : Nat) (a b : Arc W), f.arcs[i]? = some a → g.arcs[i]? = some b →
      b.src = a.src ∧ b.dst = a.dst := by
    intro i a b ha hb
    obtain ⟨a', x, l, ha', _, _, rfl⟩ := (invertTensor_get f g aux aux' hl h i b).mp hb
    rw [ha] at ha'
    obtain rfl := Option.some.inj ha'
    exact ⟨rfl, rfl⟩
  have key : ∀ (A B : Fsa W), A.numStates = B.numStates → A.arcs.length = B.arcs.length →
      (∀ (i : Nat) (a b : Arc W), A.arcs[i]? = some a → B.arcs[i]? = some b → b.src = a.src ∧ b.dst = a.dst) →
      ∀ ip, PPath A ip → ∃ jp, PPath B jp ∧ jp.map Prod.fst = ip.map Prod.fst := by
    intro A B hAB hlAB hs ip ⟨h1, h2, h3⟩
    have : ∀ (ip : List (Nat × Arc W)) (s : Nat), Chain s (ip.map Prod.snd) A.final →
        (∀ x ∈ ip, A.arcs[x.1]? = some x.2) →
        ∃ jp : List (Nat × Arc W), Chain s (jp.map Prod.snd) A.final ∧
          (∀ x ∈ jp, B.arcs[x.1]? = some x.2) ∧ jp.map Prod.fst = ip.map Prod.fst := by
      intro ip
      induction ip with
      | nil => intro s hc _; exact ⟨[], hc, by simp, rfl⟩
      | cons y ip ih =>
        intro s hc hm
        have hy := hm y (by simp)
        obtain ⟨hlt, _⟩ := List.getElem?_eq_some_iff.mp hy
        have hb := List.getElem?_eq_getElem (l := B.arcs) (i := y.1) (by omega)
        obtain ⟨e1, e2⟩ := hs _ _ _ hy hb
        rw [List.map_cons, chain_cons] at hc
        obtain ⟨jp, a1, a2, a3⟩ := ih y.2.dst hc.2 (fun x hx => hm x (by simp [hx]))
        refine ⟨(y.1, B.arcs[y.1]) :: jp, ?_, ?_, by simp [a3]⟩
        · rw [List.map_cons, chain_cons]
          exact ⟨by rw [e1]; exact hc.1, by rw [e2]; exact a1⟩
        · intro x hx
          rcases List.mem_cons.mp hx with rfl | hx
          · exact hb
          · exact a2 x hx
    obtain ⟨jp, a1, a2, a3⟩ := this ip 0 h2 h3
    refine ⟨jp, ⟨by omega, ?_, a2⟩, a3⟩
    have : B.final = A.final := by simp only [Fsa.final, hAB]
    rw [this]; exact a1
  constructor
  · rintro ⟨jp, hj, rfl⟩
    exact key g f hn hlen (fun i a b ha hb => by
      obtain ⟨e1, e2⟩ := hsame i b a hb ha; exact ⟨e1.symm, e2.symm⟩) jp hj
  · rintro ⟨ip, hi, rfl⟩
    exact key f g hn.symm hlen.symm hsame ip hi

theorem invertTensor_strings [Add W] [Zero W] (f g : Fsa W) (aux aux' : List Int)
    (hl : aux.length = f.arcs.length) (h : invertTensor f aux = some (g, aux'))
    (ip jp : List (Nat × Arc W)) (hi : PPath f ip) (hj : PPath g jp)
    (he : ip.map Prod.fst = jp.map Prod.fst) :
    pstring jp = strip (tattrs aux ip) ∧ strip (tattrs aux' jp) = pstring ip ∧
      pscore jp = pscore ip := by
  obtain ⟨_, haux, _⟩ := invertTensor_arcs f g aux aux' h
  replace hi := hi.2.2
  replace hj := hj.2.2
  induction ip generalizing jp with
  | nil =>
    have : jp = [] := by simpa using he.symm
    subst this
    exact ⟨rfl, rfl, rfl⟩
  | cons y ip ih =>
    cases jp with
    | nil => simp at he
    | cons z jp =>
      simp only [List.map_cons, List.cons.injEq] at he
      obtain ⟨e1, e2, e3⟩ := ih jp he.2 (fun x hx => hi x (by simp [hx]))
        (fun x hx => hj x (by simp [hx]))
      have hy := hi y (by simp)
      have hz := hj z (by simp)
      obtain ⟨a, x, l, ha, hx, hfix, hb⟩ := (invertTensor_get f g aux aux' hl h _ _).mp hz
      rw [← he.1, hy] at ha
      obtain rfl := Option.some.inj ha
      rw [← he.1] at hx
      have hlab : z.2.label = l := by rw [hb]
      have hsc : z.2.score = y.2.score := by rw [hb]
      have hx' : aux.getD y.1 0 = x := by rw [List.getD_eq_getElem?_getD, hx]; rfl
      have haux' : aux'.getD z.1 0 = y.2.label := by
        rw [haux, List.getD_eq_getElem?_getD, List.getElem?_map, ← he.1, hy]; rfl
      refine ⟨?_, ?_, ?_⟩
      · have : ∀ (v : Int) (L : List Int), strip (v :: L) = strip [v] ++ strip L := by
          intro v L; rw [← strip_append]; rfl
        unfold pstring tattrs at *
        rw [List.map_cons, labels_cons, List.map_cons, this, this (aux.getD y.1 0), hlab, hx',
          (fixLabel_final hfix).2, e1]
      · have : ∀ (v : Int) (L : List Int), strip (v :: L) = strip [v] ++ strip L := by
          intro v L; rw [← strip_append]; rfl
        unfold pstring tattrs at *
        rw [List.map_cons, List.map_cons, labels_cons, this, this y.2.label, haux', e2]
      · unfold pscore at *
        rw [List.map_cons, List.map_cons, score_cons, score_cons, hsc, e3]

/-- Inverting twice always succeeds the second time and gives back the FSA.  The aux labels come
back too if -1 was exactly on the arcs entering the final state. -/
theorem invertTensor_twice (f g : Fsa W) (hf : f.Valid) (aux aux' : List Int)
    (hl : aux.length = f.arcs.length) (h : invertTensor f aux = some (g, aux')) :
    ∃ aux'', invertTensor g aux' = some (f, aux'') ∧
      ((∀ (i : Nat) (a : Arc W) (x : Int), f.arcs[i]? = some a → aux[i]? = some x →
        (x = -1 ↔ a.dst = f.final)) → aux'' = aux) := by
  obtain ⟨hn, haux, _⟩ := invertTensor_arcs f g aux aux' h
  have h2 := hf.two
  have hlen := invertTensor_length f g aux aux' hl h
  have hl' : aux'.length = g.arcs.length := by rw [haux, List.length_map, hlen]
  have hdef : (invertTensor g aux').isSome := by
    rw [invertTensor_defined g aux' hl']
    intro i b x hb hx hd
    obtain ⟨a, x', l, ha, _, _, rfl⟩ := (invertTensor_get f g aux aux' hl h i b).mp hb
    rw [haux, List.getElem?_map, ha] at hx
    obtain rfl := Option.some.inj hx
    right
    rw [hf.final_iff a (List.mem_of_getElem? ha)]
    simp only [Fsa.final] at hd ⊢; omega
  obtain ⟨⟨g2, aux2⟩, hg2⟩ := Option.isSome_iff_exists.mp hdef
  obtain ⟨hn2, haux2, _⟩ := invertTensor_arcs g g2 aux' aux2 hg2
  refine ⟨aux2, ?_, ?_⟩
  · rw [hg2]
    congr 2
    have harcs : g2.arcs = f.arcs := by
      apply List.ext_getElem?
      intro i
      by_cases hi : i < f.arcs.length
      · rw [List.getElem?_eq_getElem hi, invertTensor_get g g2 aux' aux2 hl' hg2]
        have hig : i < g.arcs.length := by omega
        obtain ⟨a, x, l, ha, hx, hfix, hb⟩ :=
          (invertTensor_get f g aux aux' hl h i _).mp (List.getElem?_eq_getElem hig)
        obtain ⟨_, rfl⟩ := List.getElem?_eq_some_iff.mp ha
        refine ⟨_, f.arcs[i].label, f.arcs[i].label, List.getElem?_eq_getElem hig, ?_, ?_, ?_⟩
        · rw [haux, List.getElem?_map, ha]; rfl
        · rw [hb]
          have hfi := hf.final_iff _ (List.getElem_mem hi)
          simp only [Fsa.final] at hfi
          unfold fixLabel
          rw [hn]
          simp only
          by_cases hc : f.arcs[i].label = -1
          · have := hfi.mp hc
            rw [if_pos (by omega), if_pos (Or.inl hc), hc]
          · rw [if_neg (fun hd => hc (hfi.mpr (by omega))), if_neg hc]
        · rw [hb]
      · have hl3 := invertTensor_length g g2 aux' aux2 hl' hg2
        rw [List.getElem?_eq_none (by omega), List.getElem?_eq_none (by omega)]
    cases f; cases g2
    simp only [Fsa.mk.injEq] at *
    exact ⟨by omega, harcs⟩
  · intro hcond
    rw [haux2]
    apply List.ext_getElem?
    intro i
    by_cases hi : i < f.arcs.length
    · have hig : i < g.arcs.length := by omega
      obtain ⟨a, x, l, ha, hx, hfix, hb⟩ :=
        (invertTensor_get f g aux aux' hl h i _).mp (List.getElem?_eq_getElem hig)
      rw [List.getElem?_map, List.getElem?_eq_getElem hig, hb, hx]
      simp only [Option.map_some, Option.some.injEq]
      have hc := hcond i a x ha hx
      simp only [Fsa.final] at hc
      unfold fixLabel at hfix
      by_cases hd : a.dst + 1 = f.numStates
      · have : x = -1 := hc.mpr (by omega)
        rw [if_pos hd, if_pos (Or.inl this)] at hfix
        rw [this]; exact (Option.some.inj hfix).symm
      · have : ¬ x = -1 := fun hx => hd (by have := hc.mp hx; omega)
        rw [if_neg hd, if_neg this] at hfix
        exact (Option.some.inj hfix).symm
    · rw [List.getElem?_eq_none (by simp; omega), List.getElem?_eq_none (by omega)]

/-- A concrete case: aux label 0 on a final arc is accepted; the second inversion turns it into
-1. -/
example : invertTensor expandExample [7, -1, 0] =
    some (⟨3, [⟨0, 1, 7, 1⟩, ⟨0, 1, 0, 2⟩, ⟨1, 2, -1, 4⟩]⟩, [5, 6, -1]) := by decide +kernel

example : (invertTensor expandExample [7, -1, 0]).bind (fun r => invertTensor r.1 r.2) =
    some (expandExample, [7, 0, -1]) := by decide +kernel

example : invertTensor expandExample [7, 8, 9] = none := by decide +kernel

end Verif.Fsa
