import Verif.Fsa.Cache.Spec
import Mathlib.Tactic.Tauto

/-! Dictionaries, calls, and the invariant of one object. -/

namespace Verif.Fsa.Cac
variable {V : Type}

theorem get_put (d : Dict V) (k k' : String) (v : V) :
    get (put d k v) k' = if k = k' then some v else get d k' := by
  induction d with
  | nil => simp [put, get]
  | cons x t ih =>
    obtain ⟨a, b⟩ := x
    unfold put
    by_cases h : a = k
    · subst h
      rw [if_pos rfl]
      by_cases h2 : a = k' <;> simp [get, h2]
    · rw [if_neg h]
      simp only [get, ih]
      by_cases h2 : a = k'
      · subst h2; simp [h, Ne.symm h]
      · simp [h2]

theorem get_filter (d : Dict V) (p : String → Bool) (k : String) :
    get (d.filter fun x => p x.1) k = if p k then get d k else none := by
  induction d with
  | nil => simp [get]
  | cons x t ih =>
    obtain ⟨a, b⟩ := x
    rw [List.filter_cons]
    dsimp only
    by_cases h : a = k
    · subst h
      cases hp : p a <;> simp [hp, get, ih]
    · cases hp : p a
      · simp only [Bool.false_eq_true, if_false, ih, get, if_neg h]
      · simp only [if_true, get, if_neg h, ih]

theorem get_del (d : Dict V) (k k' : String) :
    get (del d k) k' = if k' = k then none else get d k' := by
  unfold del
  rw [get_filter d (fun x => decide (x ≠ k))]
  by_cases h : k' = k <;> simp [h]

theorem get_mem {d : Dict V} {k : String} {v : V} (h : get d k = some v) : (k, v) ∈ d := by
  induction d with
  | nil => simp [get] at h
  | cons x t ih =>
    obtain ⟨a, b⟩ := x
    unfold get at h
    by_cases ha : a = k
    · rw [if_pos ha] at h
      rw [← ha, ← Option.some.inj h]
      exact List.mem_cons_self
    · rw [if_neg ha] at h
      exact List.mem_cons_of_mem _ (ih h)

/-! ## Calls -/

variable {σ α β : Type}

/-- What a call guarantees. -/
def Keeps (I : σ → Prop) (m : M σ α) (Q : σ → Option α → σ → Prop) : Prop :=
  ∀ s, I s → I (m s).2 ∧ Q s (m s).1 (m s).2

theorem bind_run (m : M σ α) (f : α → M σ β) (s : σ) :
    (m >>= f) s = match m s with
      | (some a, s') => f a s'
      | (none, s') => (none, s') := rfl

theorem pure_run (a : α) (s : σ) : (pure a : M σ α) s = (some a, s) := rfl

theorem read_bind (f : σ → M σ β) (s : σ) : (read >>= f) s = f s s := rfl

theorem modify_bind (g : σ → σ) (f : Unit → M σ β) (s : σ) : (modify g >>= f) s = f () (g s) := rfl

theorem ofOption_bind (x : Option α) (f : α → M σ β) (s : σ) :
    (ofOption x >>= f) s = match x with
      | some a => f a s
      | none => (none, s) := by
  rw [bind_run]
  cases x <;> rfl

theorem check_bind (b : Bool) (f : Unit → M σ β) (s : σ) :
    (check b >>= f) s = if b then f () s else (none, s) := by
  cases b <;> rfl

variable {T S R : Type}

/-- The cache of an object agrees with its arcs.  `D` are the precisions with which entering arcs may
have been computed, and `keep` says that entering arcs have not been deleted. -/
structure Coh (o : Ops T S R) (D : Bool → Prop) (keep : Prop) (s : OS T S R) : Prop where
  val : ∀ k v, k ≠ Key.enteringArcs → get s.1.cache k.name = some v → fresh o s.2 k = some v
  ent : ∀ v, get s.1.cache Key.enteringArcs.name = some v → ∃ d, D d ∧ freshEnt o s.2 d = some v
  has : keep → ∀ d v, get s.1.cache (Key.forward d false).name = some v →
    (get s.1.cache Key.enteringArcs.name).isSome
  names : ∀ n v, get s.1.cache n = some v → ∃ k : Key, n = k.name

/-- Two states that differ only in the cache. -/
def Frame (s t : OS T S R) : Prop :=
  t.2 = s.2 ∧ t.1.ver = s.1.ver ∧ t.1.tensorAttr = s.1.tensorAttr ∧ t.1.nonTensor = s.1.nonTensor ∧
    t.1.props = s.1.props

theorem Frame.refl (s : OS T S R) : Frame s s := ⟨rfl, rfl, rfl, rfl, rfl⟩

theorem Frame.trans {s t u : OS T S R} (h1 : Frame s t) (h2 : Frame t u) : Frame s u :=
  ⟨h2.1.trans h1.1, h2.2.1.trans h1.2.1, h2.2.2.1.trans h1.2.2.1, h2.2.2.2.1.trans h1.2.2.2.1,
    h2.2.2.2.2.trans h1.2.2.2.2⟩

/-- A query that works: it returns what `g` says of the memory. -/
def Works (o : Ops T S R) (D : Bool → Prop) (keep : Prop) (m : M (OS T S R) R) (g : Mem T S → Option R) :
    Prop :=
  ∀ s, Coh o D keep s → Coh o D keep (m s).2 ∧ Frame s (m s).2 ∧ (m s).1 = g s.2

/-- All queries. -/
def allKeys : List Key :=
  [.stateBatches, .destStates, .incomingArcs, .enteringArcBatches, .leavingArcBatches, .enteringArcs] ++
    [(false, false), (false, true), (true, false), (true, true)].flatMap fun x =>
      [.arcCdf x.1 x.2, .forward x.1 x.2, .tot x.1 x.2, .backward x.1 x.2, .arcPost x.1 x.2]

theorem mem_allKeys (k : Key) : k ∈ allKeys := by
  cases k with
  | arcCdf d l => cases d <;> cases l <;> decide
  | forward d l => cases d <;> cases l <;> decide
  | tot d l => cases d <;> cases l <;> decide
  | backward d l => cases d <;> cases l <;> decide
  | arcPost d l => cases d <;> cases l <;> decide
  | _ => decide

theorem keys_found : ∀ k ∈ allKeys, allKeys.find? (fun x => x.name == k.name) = some k := by decide +kernel

theorem name_inj {k k' : Key} (h : k.name = k'.name) : k = k' := by
  have h1 := keys_found k (mem_allKeys k)
  rw [h, keys_found k' (mem_allKeys k')] at h1
  exact (Option.some.inj h1).symm

theorem name_eq {k k' : Key} : k.name = k'.name ↔ k = k' := ⟨name_inj, fun h => by rw [h]⟩

/-- The queries that the arcs' scores influence. -/
def usesScores : Key → Bool
  | .stateBatches | .destStates | .incomingArcs | .enteringArcBatches | .leavingArcBatches => false
  | _ => true

theorem dropped : ∀ k ∈ allKeys, (scoreKey k.name || k.name == "entering_arcs") = usesScores k := by
  decide +kernel

/-! ## Storing in the cache -/

variable {o : Ops T S R} {D : Bool → Prop} {keep : Prop}

theorem coh_put {s : OS T S R} (h : Coh o D keep s) (k : Key) (hk : k ≠ .enteringArcs) (v : R)
    (hv : fresh o s.2 k = some v)
    (hf : keep → ∀ d, k = .forward d false → (get s.1.cache Key.enteringArcs.name).isSome) :
    Coh o D keep ({ s.1 with cache := put s.1.cache k.name v }, s.2) := by
  refine ⟨?_, ?_, ?_, ?_⟩
  · intro k' v' hk' hg
    dsimp only at hg ⊢
    rw [get_put] at hg
    by_cases he : k.name = k'.name
    · rw [if_pos he] at hg
      rw [← name_inj he, ← Option.some.inj hg]
      exact hv
    · rw [if_neg he] at hg
      exact h.val k' v' hk' hg
  · intro v' hg
    dsimp only at hg ⊢
    rw [get_put, if_neg (fun he => hk (name_inj he))] at hg
    exact h.ent v' hg
  · intro hkeep d v' hg
    dsimp only at hg ⊢
    rw [get_put] at hg ⊢
    rw [if_neg (fun he => hk (name_inj he))]
    by_cases he : k.name = (Key.forward d false).name
    · exact hf hkeep d (name_inj he)
    · rw [if_neg he] at hg
      exact h.has hkeep d v' hg
  · intro n v' hg
    dsimp only at hg
    rw [get_put] at hg
    by_cases he : k.name = n
    · exact ⟨k, he.symm⟩
    · rw [if_neg he] at hg
      exact h.names n v' hg

theorem coh_put_ent {s : OS T S R} (h : Coh o D False s) (d : Bool) (hd : D d) (v : R) (hv : freshEnt o s.2 d = some v) :
    Coh o D keep ({ s.1 with cache := put s.1.cache Key.enteringArcs.name v }, s.2) := by
  refine ⟨?_, ?_, ?_, ?_⟩
  · intro k' v' hk' hg
    dsimp only at hg ⊢
    rw [get_put, if_neg (fun he => hk' (name_inj he).symm)] at hg
    exact h.val k' v' hk' hg
  · intro v' hg
    dsimp only at hg ⊢
    rw [get_put, if_pos rfl] at hg
    exact ⟨d, hd, by rw [← Option.some.inj hg]; exact hv⟩
  · intro _ d' v' hg
    dsimp only
    rw [get_put, if_pos rfl]
    rfl
  · intro n v' hg
    dsimp only at hg
    rw [get_put] at hg
    by_cases he : Key.enteringArcs.name = n
    · exact ⟨_, he.symm⟩
    · rw [if_neg he] at hg
      exact h.names n v' hg

theorem coh_weaken {s : OS T S R} (h : Coh o D keep s) : Coh o D False s :=
  ⟨h.val, h.ent, fun hf => hf.elim, h.names⟩

theorem works_cached (k : Key) (hk : k ≠ .enteringArcs) (hf : ∀ d, k ≠ .forward d false)
    (compute : M (OS T S R) R) (h : Works o D keep compute (fun m => fresh o m k)) :
    Works o D keep (cached k.name compute) (fun m => fresh o m k) := by
  intro s hs
  unfold cached
  rw [read_bind]
  cases hg : get s.1.cache k.name with
  | some v => exact ⟨hs, Frame.refl s, (hs.val k v hk hg).symm⟩
  | none =>
    dsimp only
    obtain ⟨h1, h2, h3⟩ := h s hs
    rw [bind_run]
    cases hc : compute s with
    | mk r s' =>
      rw [hc] at h1 h2 h3
      dsimp only at h1 h2 h3
      cases r with
      | none => exact ⟨h1, h2, h3⟩
      | some v =>
        dsimp only
        rw [modify_bind, pure_run]
        dsimp only
        refine ⟨coh_put h1 k hk v (by rw [h2.1, h3]) (fun _ d hd => absurd hd (hf d)), ?_, h3⟩
        exact ⟨h2.1, h2.2.1, h2.2.2.1, h2.2.2.2.1, h2.2.2.2.2⟩

/-- A step of a query: another query, then the rest. -/
theorem works_bind {m : M (OS T S R) R} {g : Mem T S → Option R} (h1 : Works o D keep m g)
    (f : R → M (OS T S R) R) (g' : R → Mem T S → Option R) (h2 : ∀ r, Works o D keep (f r) (g' r)) :
    Works o D keep (m >>= f) (fun x => (g x).bind fun r => g' r x) := by
  intro s hs
  obtain ⟨a1, a2, a3⟩ := h1 s hs
  rw [bind_run]
  cases hc : m s with
  | mk r s' =>
    rw [hc] at a1 a2 a3
    dsimp only at a1 a2 a3
    cases r with
    | none => exact ⟨a1, a2, by dsimp only; rw [← a3]; rfl⟩
    | some v =>
      dsimp only
      obtain ⟨b1, b2, b3⟩ := h2 v s' a1
      refine ⟨b1, a2.trans b2, ?_⟩
      rw [b3, a2.1, ← a3]
      rfl

/-- The call of a C++ function. -/
theorem works_read (g : Mem T S → Option R) :
    Works o D keep (read >>= fun s => ofOption (g s.2)) g :=
  fun s hs => ⟨hs, Frame.refl s, rfl⟩

theorem works_congr {m : M (OS T S R) R} {g g' : Mem T S → Option R} (h : Works o D keep m g)
    (he : ∀ x, g x = g' x) : Works o D keep m g' := by
  have : g = g' := funext he
  rwa [← this]

theorem works_stateBatches : Works o D keep (getStateBatches o) (fun m => fresh o m .stateBatches) :=
  works_cached _ (by decide) (fun _ => by simp) _ (works_read (fun m => o.stateBatches m.topo))

theorem works_destStates : Works o D keep (getDestStates o) (fun m => fresh o m .destStates) :=
  works_cached _ (by decide) (fun _ => by simp) _ (works_read (fun m => o.destStates m.topo))

theorem works_incomingArcs : Works o D keep (getIncomingArcs o) (fun m => fresh o m .incomingArcs) :=
  works_cached _ (by decide) (fun _ => by simp) _
    (works_bind works_destStates _ _ fun r => works_read (fun m => o.incomingArcs m.topo r))

theorem works_enteringArcBatches :
    Works o D keep (getEnteringArcBatches o) (fun m => fresh o m .enteringArcBatches) :=
  works_cached _ (by decide) (fun _ => by simp) _
    (works_bind works_incomingArcs _ _ fun i => works_bind works_stateBatches _ _ fun b =>
      works_read (fun m => o.enteringBatches m.topo i b))

theorem works_leavingArcBatches :
    Works o D keep (getLeavingArcBatches o) (fun m => fresh o m .leavingArcBatches) :=
  works_cached _ (by decide) (fun _ => by simp) _
    (works_bind works_stateBatches _ _ fun b => works_read (fun m => o.leavingBatches m.topo b))

theorem works_forward (d l : Bool) (hd : l = false → D d) :
    Works o D keep (getForwardScores o d l) (fun m => fresh o m (.forward d l)) := by
  intro s hs
  unfold getForwardScores
  rw [read_bind]
  cases hg : get s.1.cache (Key.forward d l).name with
  | some v => exact ⟨hs, Frame.refl s, (hs.val _ v (by simp) hg).symm⟩
  | none =>
    dsimp only
    obtain ⟨a1, a2, a3⟩ := works_stateBatches s hs
    rw [bind_run]
    cases hb : getStateBatches o s with
    | mk r s1 =>
      rw [hb] at a1 a2 a3
      dsimp only at a1 a2 a3
      cases r with
      | none =>
        refine ⟨a1, a2, ?_⟩
        simp only [fresh] at a3
        simp only [fresh, freshFwd, ← a3]
        rfl
      | some b =>
        dsimp only
        obtain ⟨b1, b2, b3⟩ := works_enteringArcBatches s1 a1
        rw [bind_run]
        cases he : getEnteringArcBatches o s1 with
        | mk r s2 =>
          rw [he] at b1 b2 b3
          dsimp only at b1 b2 b3
          rw [a2.1] at b3
          simp only [fresh] at a3 b3
          cases r with
          | none =>
            refine ⟨b1, a2.trans b2, ?_⟩
            simp only [fresh, freshFwd, ← a3, Option.bind_some]
            rw [← a3] at b3
            simp only [Option.bind_some] at b3
            rw [← b3]
            rfl
          | some e =>
            dsimp only
            rw [read_bind, ofOption_bind]
            have hm : s2.2 = s.2 := b2.1.trans a2.1
            have hff : freshFwd o s.2 d l = o.forward d l s.2.topo s.2.scores b e := by
              unfold freshFwd
              rw [← a3] at b3 ⊢
              simp only [Option.bind_some] at b3 ⊢
              rw [← b3]
              rfl
            rw [hm]
            cases hv : o.forward d l s.2.topo s.2.scores b e with
            | none =>
              refine ⟨b1, a2.trans b2, ?_⟩
              simp only [fresh, hff, hv]
              rfl
            | some v =>
              dsimp only
              rw [modify_bind]
              have hfr : fresh o s.2 (.forward d l) = some v.1 := by simp only [fresh, hff, hv]; rfl
              by_cases hl : l = false
              · rw [if_pos hl]
                subst hl
                rw [modify_bind, pure_run]
                dsimp only
                have c1 := coh_put (coh_weaken b1) (.forward d false) (by simp) v.1
                  (by rw [hm]; exact hfr) (fun hf => hf.elim)
                have c2 := coh_put_ent (keep := keep) c1 d (hd rfl) v.2
                  (by dsimp only; rw [hm]; unfold freshEnt; rw [hff, hv]; rfl)
                exact ⟨c2, a2.trans ⟨b2.1, b2.2.1, b2.2.2.1, b2.2.2.2.1, b2.2.2.2.2⟩, hfr.symm⟩
              · rw [if_neg hl]
                have c1 := coh_put b1 (.forward d l) (by simp) v.1
                  (by rw [hm]; exact hfr) (fun _ d' hd' => by
                    exfalso
                    injection hd' with _ h2
                    exact hl h2)
                exact ⟨c1, a2.trans ⟨b2.1, b2.2.1, b2.2.2.1, b2.2.2.2.1, b2.2.2.2.2⟩, hfr.symm⟩

/-- Forward scores that have been returned are in the cache. -/
theorem forward_stored (d l : Bool) (s : OS T S R) (v : R) (h : (getForwardScores o d l s).1 = some v) :
    ∃ w, get (getForwardScores o d l s).2.1.cache (Key.forward d l).name = some w := by
  unfold getForwardScores at h ⊢
  rw [read_bind] at h ⊢
  cases hg : get s.1.cache (Key.forward d l).name with
  | some w => exact ⟨w, hg⟩
  | none =>
    rw [hg] at h
    dsimp only at h ⊢
    rw [bind_run] at h ⊢
    cases hq : getStateBatches o s with
    | mk r s1 =>
      rw [hq] at h
      cases r with
      | none => simp at h
      | some b =>
        dsimp only at h ⊢
        rw [bind_run] at h ⊢
        cases hq2 : getEnteringArcBatches o s1 with
        | mk r s2 =>
          rw [hq2] at h
          cases r with
          | none => simp at h
          | some e =>
            dsimp only at h ⊢
            rw [read_bind, ofOption_bind] at h ⊢
            cases hq3 : o.forward d l s2.2.topo s2.2.scores b e with
            | none => rw [hq3] at h; simp at h
            | some x =>
              dsimp only
              rw [modify_bind]
              by_cases hl : l = false
              · rw [if_pos hl, modify_bind, pure_run]
                refine ⟨x.1, ?_⟩
                dsimp only
                rw [get_put, if_neg (fun he => by have := name_inj he; simp at this), get_put, if_pos rfl]
              · rw [if_neg hl]
                refine ⟨x.1, ?_⟩
                show get (put s2.1.cache (Key.forward d l).name x.1) _ = _
                rw [get_put, if_pos rfl]

theorem works_tot (d l : Bool) (hd : l = false → D d) :
    Works o D keep (getTotScores o d l) (fun m => fresh o m (.tot d l)) :=
  works_cached _ (by simp) (fun _ => by simp) _
    (works_bind (works_forward d l hd) _ _ fun f => works_read (fun m => o.tot d m.topo f))

theorem works_backward (d l : Bool) :
    Works o D keep (getBackwardScores o d l) (fun m => fresh o m (.backward d l)) :=
  works_cached _ (by simp) (fun _ => by simp) _
    (works_bind works_stateBatches _ _ fun b => works_bind works_leavingArcBatches _ _ fun a =>
      works_read (fun m => o.backward d l m.topo m.scores b a))

theorem works_arcPost (d l : Bool) (hd : l = false → D d) :
    Works o D keep (getArcPost o d l) (fun m => fresh o m (.arcPost d l)) :=
  works_cached _ (by simp) (fun _ => by simp) _
    (works_bind (works_forward d l hd) _ _ fun f => works_bind (works_backward d l) _ _ fun b =>
      works_read (fun m => o.arcPost d m.topo m.scores f b))

theorem works_arcCdf (d l : Bool) (hd : l = false → D d) :
    Works o D keep (getArcCdf o d l) (fun m => fresh o m (.arcCdf d l)) :=
  works_cached _ (by simp) (fun _ => by simp) _
    (works_bind (works_arcPost d l hd) _ _ fun p => works_read (fun m => o.arcCdf d m.topo p))

end Verif.Fsa.Cac
