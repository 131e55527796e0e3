import Verif.Fsa.TopSort.Model

/-!
The decrementing kernel of `GetNextBatch`: whatever the order of its threads, the counters end up the same
and one thread per counter that reaches zero is kept.
-/

namespace Verif.Fsa.Top
variable {W : Type}

/-- The number of positions in `L` whose target is `d`. -/
def hits (tg : Nat → Option Nat) (L : List Nat) (d : Nat) : Nat := L.countP (fun i => decide (tg i = some d))

/-- One thread whose target is `t`. -/
def decTo (t : Option Nat) (st : List Nat × List Bool) (i : Nat) : Option (List Nat × List Bool) :=
  match t with
  | none => some (st.1, st.2.set i false)
  | some d =>
    match st.1[d]? with
    | none => none
    | some n => if n = 0 then none else some (st.1.set d (n - 1), st.2.set i (decide (n - 1 = 0)))

theorem hits_cons (tg : Nat → Option Nat) (i : Nat) (L : List Nat) (d : Nat) :
    hits tg (i :: L) d = hits tg L d + if tg i = some d then 1 else 0 := by
  unfold hits
  rw [List.countP_cons]
  by_cases h : tg i = some d <;> simp [h]

theorem hits_pos (tg : Nat → Option Nat) (L : List Nat) (i d : Nat) (hi : i ∈ L) (h : tg i = some d) :
    0 < hits tg L d := List.countP_pos_iff.mpr ⟨i, hi, by simpa using h⟩

theorem hits_perm (tg : Nat → Option Nat) {L L' : List Nat} (h : L.Perm L') (d : Nat) :
    hits tg L d = hits tg L' d := h.countP_eq _

theorem decLoop_spec (dest : List Nat) (items : List (Nat × Nat × Nat)) (tg : Nat → Option Nat)
    (L : List Nat) (hnd : L.Nodup)
    (hstep : ∀ i ∈ L, ∀ st, decStep dest items st i = decTo (tg i) st i)
    (deg : List Nat) (keep : List Bool) (hk : ∀ i ∈ L, i < keep.length)
    (hin : ∀ i ∈ L, ∀ d, tg i = some d → d < deg.length)
    (hge : ∀ d n, deg[d]? = some n → hits tg L d ≤ n) :
    ∃ deg' keep', decLoop dest items L (deg, keep) = some (deg', keep') ∧
      deg'.length = deg.length ∧ keep'.length = keep.length ∧
      (∀ d n, deg[d]? = some n → deg'[d]? = some (n - hits tg L d)) ∧
      (∀ i, i ∉ L → keep'[i]? = keep[i]?) ∧
      (∀ i ∈ L, keep'[i]? = some true → ∃ d, tg i = some d ∧ deg[d]? = some (hits tg L d)) ∧
      (∀ i ∈ L, ∀ j ∈ L, keep'[i]? = some true → keep'[j]? = some true → tg i = tg j → i = j) ∧
      (∀ d, deg[d]? = some (hits tg L d) → 0 < hits tg L d →
        ∃ i ∈ L, keep'[i]? = some true ∧ tg i = some d) := by
  induction L generalizing deg keep with
  | nil =>
    refine ⟨deg, keep, rfl, rfl, rfl, ?_, fun _ _ => rfl, by simp, by simp, ?_⟩
    · intro d n h; simpa [hits] using h
    · intro d _ h; simp [hits] at h
  | cons i L ih =>
    obtain ⟨hni, hnd'⟩ := List.nodup_cons.mp hnd
    have hki := hk i List.mem_cons_self
    have h1 := hstep i List.mem_cons_self (deg, keep)
    cases ht : tg i with
    | none =>
      rw [ht] at h1
      have hh : ∀ d, hits tg (i :: L) d = hits tg L d := by intro d; rw [hits_cons, ht]; simp
      simp only [hh] at *
      obtain ⟨deg', keep', e, l1, l2, p1, p2, p3, p4, p5⟩ := ih hnd'
        (fun j hj => hstep j (List.mem_cons_of_mem _ hj)) deg (keep.set i false)
        (fun j hj => by rw [List.length_set]; exact hk j (List.mem_cons_of_mem _ hj))
        (fun j hj => hin j (List.mem_cons_of_mem _ hj)) hge
      have hki' : keep'[i]? = some false := by rw [p2 i hni, List.getElem?_set_self hki]
      refine ⟨deg', keep', ?_, l1, by rw [l2, List.length_set], p1, ?_, ?_, ?_, ?_⟩
      · rw [decLoop, h1]; exact e
      · intro j hj
        rw [List.mem_cons, not_or] at hj
        rw [p2 j hj.2, List.getElem?_set_ne (Ne.symm hj.1)]
      · intro j hj hkj
        rcases List.mem_cons.mp hj with rfl | hj
        · rw [hki'] at hkj; simp at hkj
        · exact p3 j hj hkj
      · intro j hj j' hj' hkj hkj' he
        rcases List.mem_cons.mp hj with rfl | hj
        · rw [hki'] at hkj; simp at hkj
        rcases List.mem_cons.mp hj' with rfl | hj'
        · rw [hki'] at hkj'; simp at hkj'
        exact p4 j hj j' hj' hkj hkj' he
      · intro d hd hpos
        obtain ⟨j, hj, h⟩ := p5 d hd hpos
        exact ⟨j, List.mem_cons_of_mem _ hj, h⟩
    | some d0 =>
      rw [ht] at h1
      have hd0 := hin i List.mem_cons_self d0 ht
      have hg0 := List.getElem?_eq_getElem hd0
      have hge0 := hge d0 _ hg0
      rw [hits_cons, ht, if_pos rfl] at hge0
      have hn : deg[d0] ≠ 0 := by omega
      have h2 : decStep dest items (deg, keep) i =
          some (deg.set d0 (deg[d0] - 1), keep.set i (decide (deg[d0] - 1 = 0))) := by
        rw [h1, decTo]; simp only [hg0]; rw [if_neg hn]
      have hh0 : hits tg (i :: L) d0 = hits tg L d0 + 1 := by rw [hits_cons, ht, if_pos rfl]
      have hhne : ∀ d, d ≠ d0 → hits tg (i :: L) d = hits tg L d := by
        intro d hd
        rw [hits_cons, ht, if_neg (by simpa using Ne.symm hd)]; rfl
      have hset0 : (deg.set d0 (deg[d0] - 1))[d0]? = some (deg[d0] - 1) := List.getElem?_set_self hd0
      have hsetne : ∀ d, d ≠ d0 → (deg.set d0 (deg[d0] - 1))[d]? = deg[d]? := fun d hd =>
        List.getElem?_set_ne (Ne.symm hd)
      obtain ⟨deg', keep', e, l1, l2, p1, p2, p3, p4, p5⟩ := ih hnd'
        (fun j hj => hstep j (List.mem_cons_of_mem _ hj)) (deg.set d0 (deg[d0] - 1))
        (keep.set i (decide (deg[d0] - 1 = 0)))
        (fun j hj => by rw [List.length_set]; exact hk j (List.mem_cons_of_mem _ hj))
        (fun j hj d hd => by rw [List.length_set]; exact hin j (List.mem_cons_of_mem _ hj) d hd)
        (by
          intro d n hdn
          by_cases hd : d = d0
          · subst hd
            rw [hset0] at hdn
            have := Option.some.inj hdn
            omega
          · rw [hsetne d hd] at hdn
            have := hge d n hdn
            rwa [hhne d hd] at this)
      have hki' : keep'[i]? = some (decide (deg[d0] - 1 = 0)) := by
        rw [p2 i hni, List.getElem?_set_self hki]
      -- the first thread is kept only if no later one has the same target
      have hlast : keep'[i]? = some true → hits tg L d0 = 0 ∧ deg[d0] = 1 := by
        intro h
        rw [hki'] at h
        have : deg[d0] - 1 = 0 := by simpa using h
        omega
      refine ⟨deg', keep', ?_, by rw [l1, List.length_set], by rw [l2, List.length_set], ?_, ?_, ?_, ?_, ?_⟩
      · rw [decLoop, h2]; exact e
      · intro d n hdn
        by_cases hd : d = d0
        · subst hd
          rw [hg0] at hdn
          have := Option.some.inj hdn
          rw [p1 d _ hset0, hh0]; congr 1; omega
        · rw [p1 d n (by rw [hsetne d hd]; exact hdn), hhne d hd]
      · intro j hj
        rw [List.mem_cons, not_or] at hj
        rw [p2 j hj.2, List.getElem?_set_ne (Ne.symm hj.1)]
      · intro j hj hkj
        rcases List.mem_cons.mp hj with rfl | hj
        · obtain ⟨h3, h4⟩ := hlast hkj
          exact ⟨d0, ht, by rw [hg0, hh0, h3, h4]⟩
        · obtain ⟨d, h3, h4⟩ := p3 j hj hkj
          refine ⟨d, h3, ?_⟩
          by_cases hd : d = d0
          · subst hd
            rw [hset0] at h4
            have := Option.some.inj h4
            rw [hg0, hh0]; congr 1; omega
          · rw [hsetne d hd] at h4
            rw [hhne d hd]; exact h4
      · intro j hj j' hj' hkj hkj' he
        rcases List.mem_cons.mp hj with rfl | hj1
        · rcases List.mem_cons.mp hj' with rfl | hj'1
          · rfl
          · obtain ⟨h3, _⟩ := hlast hkj
            have := hits_pos tg L j' d0 hj'1 (by rw [← he, ht])
            omega
        · rcases List.mem_cons.mp hj' with rfl | hj'1
          · obtain ⟨h3, _⟩ := hlast hkj'
            have := hits_pos tg L j d0 hj1 (by rw [he, ht])
            omega
          · exact p4 j hj1 j' hj'1 hkj hkj' he
      · intro d hd hpos
        by_cases hdd : d = d0
        · subst hdd
          rw [hg0, hh0] at hd
          have hd := Option.some.inj hd
          by_cases hz : hits tg L d = 0
          · exact ⟨i, List.mem_cons_self, by rw [hki']; simp; omega, ht⟩
          · obtain ⟨j, hj, h⟩ := p5 d (by rw [hset0]; congr 1; omega) (by omega)
            exact ⟨j, List.mem_cons_of_mem _ hj, h⟩
        · rw [hhne d hdd] at hd hpos
          obtain ⟨j, hj, h⟩ := p5 d (by rw [hsetne d hdd]; exact hd) hpos
          exact ⟨j, List.mem_cons_of_mem _ hj, h⟩

/-- For every order of the `n` threads: the counters are decreased by the number of hits, and the kept
threads are one for each counter that becomes zero. -/
theorem decLoop_perm (dest : List Nat) (items : List (Nat × Nat × Nat)) (tg : Nat → Option Nat)
    (L : List Nat) (hL : L.Perm (List.range items.length))
    (hstep : ∀ i < items.length, ∀ st, decStep dest items st i = decTo (tg i) st i)
    (deg : List Nat) (hin : ∀ i < items.length, ∀ d, tg i = some d → d < deg.length)
    (hge : ∀ d n, deg[d]? = some n → hits tg (List.range items.length) d ≤ n) :
    ∃ deg' keep', decLoop dest items L (deg, List.replicate items.length false) = some (deg', keep') ∧
      deg'.length = deg.length ∧ keep'.length = items.length ∧
      (∀ d n, deg[d]? = some n → deg'[d]? = some (n - hits tg (List.range items.length) d)) ∧
      (∀ i, keep'[i]? = some true → ∃ d, tg i = some d ∧
        deg[d]? = some (hits tg (List.range items.length) d)) ∧
      (∀ i j, keep'[i]? = some true → keep'[j]? = some true → tg i = tg j → i = j) ∧
      (∀ d, deg[d]? = some (hits tg (List.range items.length) d) →
        0 < hits tg (List.range items.length) d → ∃ i, keep'[i]? = some true ∧ tg i = some d) := by
  have hm : ∀ i, i ∈ L ↔ i < items.length := fun i => by rw [hL.mem_iff, List.mem_range]
  have hh : ∀ d, hits tg L d = hits tg (List.range items.length) d := hits_perm tg hL
  obtain ⟨deg', keep', e, l1, l2, p1, _, p3, p4, p5⟩ := decLoop_spec dest items tg L
    (hL.nodup_iff.mpr List.nodup_range) (fun i hi => hstep i ((hm i).mp hi)) deg
    (List.replicate items.length false) (fun i hi => by simpa using (hm i).mp hi)
    (fun i hi => hin i ((hm i).mp hi)) (by simpa only [hh] using hge)
  have hlt : ∀ i, keep'[i]? = some true → i ∈ L := by
    intro i hi
    have := (List.getElem?_eq_some_iff.mp hi).1
    rw [l2, List.length_replicate] at this
    exact (hm i).mpr this
  simp only [hh] at p1 p3 p5
  refine ⟨deg', keep', e, l1, by simpa using l2, p1, fun i hi => p3 i (hlt i hi) hi,
    fun i j hi hj => p4 i (hlt i hi) j (hlt j hj) hi hj, ?_⟩
  intro d h1 h2
  obtain ⟨i, _, h⟩ := p5 d h1 h2
  exact ⟨i, h⟩

end Verif.Fsa.Top
