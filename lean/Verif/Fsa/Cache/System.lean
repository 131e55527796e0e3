import Verif.Fsa.Cache.Calls

/-! Constructors, copies and systems. -/

namespace Verif.Fsa.Cac
variable {T S R : Type} {o : Ops T S R} {D : Bool → Prop} {keep A B : Prop}

theorem get_none {V : Type} {d : Dict V} {k : String} (h : get d k = none) : ∀ x ∈ d, x.1 ≠ k := by
  induction d with
  | nil => simp
  | cons x t ih =>
    obtain ⟨a, b⟩ := x
    unfold get at h
    split at h
    · simp at h
    · rename_i hne
      intro y hy
      rcases List.mem_cons.1 hy with rfl | hy
      · exact hne
      · exact ih h y hy

/-- What holds of one object: `A` says that the properties, and `B` that the scores are tracked. -/
structure Good (o : Ops T S R) (D : Bool → Prop) (keep A B : Prop) (s : OS T S R) : Prop where
  weak : Weak o D keep s
  props : A → PropsOk o s
  sync : B → Sync s

theorem construct_run (m : Mem T S) (p : Option Nat)
    (hp : A → ∀ x, p = some x → x = o.basicProps m.topo m.labels) {ans : Obj S R} {t : OS T S R}
    (h : construct o m p = (some ans, t)) : t = (ans, m) ∧ Good o D keep A B (ans, m) := by
  unfold construct at h
  dsimp only at h
  have hw : Weak o D keep ((⟨0, [("scores", .scoresView), ("labels", .labelsView)],
      [("labels_version", .num 0)], [], p⟩, m) : OS T S R) := by
    refine ⟨⟨?_, ?_, ?_, ?_⟩, rfl, ?_, ?_, ?_⟩
    · intro k v _ hg
      simp [get] at hg
    · intro v hg
      simp [get] at hg
    · intro _ d v hg
      simp [get] at hg
    · intro n v hg
      simp [get] at hg
    · intro _ x hx
      simp only [get, if_pos] at hx
      injection Option.some.inj hx with e
      omega
    · intro x hx
      rw [List.mem_singleton.1 hx]
      exact ⟨0, rfl⟩
    · intro x hx n
      simp only [List.mem_cons, List.not_mem_nil, or_false] at hx
      rcases hx with rfl | rfl <;> simp
  obtain ⟨a1, a2, a3, _, _, a6, _⟩ := properties_run hw
  generalize hq : properties o ((⟨0, [("scores", .scoresView), ("labels", .labelsView)],
      [("labels_version", .num 0)], [], p⟩, m) : OS T S R) = q at h a1 a2 a3 a6
  obtain ⟨r, u⟩ := q
  cases r with
  | none => simp at h
  | some _ =>
    simp only [Prod.mk.injEq, Option.some.injEq] at h
    obtain ⟨h1, h2⟩ := h
    subst h2
    dsimp only at a1 a2 a3 a6
    have e : u = (ans, m) := Prod.ext h1 a2
    rw [e] at a1 a3 a6
    refine ⟨e, a1, fun hA => a6 fun x _ _ hx => hp hA x hx, fun _ => ⟨.scoresView, ?_, Or.inl rfl⟩⟩
    dsimp only at a3
    rw [a3]
    rfl

/-- Copying attributes. -/
theorem setAll_run (l : Dict (Val S)) : ∀ {s : OS T S R}, Good o D keep A B s →
    (∀ x ∈ l, x.1 ≠ lv ∧ ((x.1 ≠ "labels" ∧ x.1 ≠ "scores") ∨ ∃ n, x.2 = .num n)) →
    Good o D keep A B (setAll o l s).2 ∧ (setAll o l s).2.2 = s.2 := by
  induction l with
  | nil => intro s hs _; exact ⟨hs, rfl⟩
  | cons x l ih =>
    intro s hs hl
    obtain ⟨h1, h2⟩ := hl x List.mem_cons_self
    obtain ⟨a1, a2, a3, _, a5, _, a7⟩ := setAttr_run hs.weak x.1 h1 x.2
    have hsame : Same s (setAttr o x.1 x.2 s).2 := by
      refine a3.resolve_left fun e => ?_
      rcases h2 with h2 | ⟨n, hn⟩
      · exact h2.1 e.1
      · rw [hn] at e
        simp [Val.isTensor] at e
    have hsc : SameScores s (setAttr o x.1 x.2 s).2 := by
      by_cases hx : x.1 = "scores"
      · rcases h2 with h2 | hn
        · exact absurd hx h2.2
        · exact ⟨(a7 hx hn).1, (a7 hx hn).2⟩
      · exact ⟨(a5 hx).1, (a5 hx).2.2⟩
    have hmem : (setAttr o x.1 x.2 s).2.2 = s.2 := by
      have e1 := hsame.topo
      have e2 := hsame.labels
      have e3 := hsc.scores
      generalize (setAttr o x.1 x.2 s).2.2 = m at e1 e2 e3
      cases m
      cases hm : s.2
      rw [hm] at e1 e2 e3
      dsimp only at e1 e2 e3
      rw [e1, e2, e3]
    have hgood : Good o D keep A B (setAttr o x.1 x.2 s).2 :=
      ⟨a1, fun hA => hsame.ok (hs.props hA), fun hB => hsc.sync (hs.sync hB)⟩
    unfold setAll
    rw [bind_run]
    cases hq : setAttr o x.1 x.2 s with
    | mk r t =>
      rw [hq] at hmem hgood
      cases r with
      | none => exact ⟨hgood, hmem⟩
      | some _ =>
        obtain ⟨b1, b2⟩ := ih hgood fun y hy => hl y (List.mem_cons_of_mem _ hy)
        exact ⟨b1, b2.trans hmem⟩

theorem copy_run {s : OS T S R} (hs : Good o D keep A B s) (p : Nat)
    (hp : A → p = o.basicProps s.2.topo s.2.labels) {ans : Obj S R} {t : OS T S R}
    (h : copyObj o s p = (some ans, t)) : t = (ans, s.2) ∧ Good o D keep A B (ans, s.2) := by
  unfold copyObj at h
  cases hc : construct o s.2 (some p) with
  | mk r u =>
    rw [hc] at h
    cases r with
    | none => simp at h
    | some ans0 =>
      dsimp only at h
      obtain ⟨rfl, hg⟩ := construct_run (D := D) (keep := keep) (A := A) (B := B) s.2 (some p)
        (fun hA x hx => by rw [← Option.some.inj hx]; exact hp hA) hc
      rw [bind_run] at h
      have h1 := setAll_run ((namedTensor s.1.tensorAttr).map fun x => (x.1, cloneVal s x.2)) hg (by
        intro x hx
        obtain ⟨y, hy, rfl⟩ := List.mem_map.1 hx
        obtain ⟨hy1, hy2⟩ := List.mem_filter.1 hy
        have hy2 := of_decide_eq_true hy2
        exact ⟨get_none hs.weak.lvT y hy1, Or.inl ⟨hy2.2, hy2.1⟩⟩)
      cases hq : setAll o ((namedTensor s.1.tensorAttr).map fun x => (x.1, cloneVal s x.2)) (ans0, s.2) with
      | mk r1 t1 =>
        rw [hq] at h h1
        cases r1 with
        | none => simp at h
        | some _ =>
          dsimp only at h h1
          rw [bind_run] at h
          have h2 := setAll_run (namedNonTensor s.1.nonTensor) h1.1 (by
            intro x hx
            obtain ⟨hy1, hy2⟩ := List.mem_filter.1 hx
            exact ⟨of_decide_eq_true hy2, Or.inr (hs.weak.num x hy1)⟩)
          cases hq2 : setAll o (namedNonTensor s.1.nonTensor) t1 with
          | mk r2 t2 =>
            rw [hq2] at h h2
            cases r2 with
            | none => simp at h
            | some _ =>
              simp only [modify, Prod.mk.injEq, Option.some.injEq] at h
              obtain ⟨e1, e2⟩ := h
              obtain ⟨g, gm⟩ := h2
              have gm : t2.2 = s.2 := gm.trans h1.2
              have e : t = (ans, s.2) := by
                rw [← e2, ← e1, gm]
              refine ⟨e, ?_⟩
              rw [← e1, ← gm]
              refine ⟨⟨coh_of_eq hs.weak.coh rfl (by rw [gm]) (by rw [gm]), g.weak.lvT, g.weak.lvN, g.weak.num,
                g.weak.ten⟩, fun hA => Same.ok ⟨rfl, rfl, rfl, rfl, rfl, id⟩ (g.props hA), fun hB => ?_⟩
              exact SameScores.sync ⟨rfl, rfl⟩ (g.sync hB)

/-! ## Systems -/

/-- Every object is good and has its own memory. -/
structure SysInv (o : Ops T S R) (D : Bool → Prop) (keep A B : Prop) (y : Sys T S R) : Prop where
  own : ∀ (i j : Nat) (x z : Nat × Obj S R), y.objs[i]? = some x → y.objs[j]? = some z → x.1 = z.1 → i = j
  good : ∀ (i : Nat) (x : Nat × Obj S R), y.objs[i]? = some x → ∃ m, y.heap[x.1]? = some m ∧ Good o D keep A B (x.2, m)

theorem inv_set {y : Sys T S R} (hy : SysInv o D keep A B y) {i : Nat} {x : Nat × Obj S R}
    (hx : y.objs[i]? = some x) {s : OS T S R} (hs : Good o D keep A B s) :
    SysInv o D keep A B ⟨y.heap.set x.1 s.2, y.objs.set i (x.1, s.1)⟩ := by
  have hi : i < y.objs.length := (List.getElem?_eq_some_iff.1 hx).1
  have hl : ∀ j z, (y.objs.set i (x.1, s.1))[j]? = some z →
      (j = i ∧ z = (x.1, s.1)) ∨ (j ≠ i ∧ y.objs[j]? = some z) := by
    intro j z hz
    rw [List.getElem?_set] at hz
    by_cases h : i = j
    · rw [if_pos h, if_pos hi] at hz
      exact Or.inl ⟨h.symm, (Option.some.inj hz).symm⟩
    · rw [if_neg h] at hz
      exact Or.inr ⟨Ne.symm h, hz⟩
  constructor
  · intro j k a b ha hb hab
    rcases hl j a ha with ⟨rfl, rfl⟩ | ⟨h1, h2⟩ <;> rcases hl k b hb with ⟨rfl, rfl⟩ | ⟨h3, h4⟩
    · rfl
    · exact hy.own _ _ _ _ hx h4 hab
    · exact hy.own _ _ _ _ h2 hx hab
    · exact hy.own _ _ _ _ h2 h4 hab
  · intro j z hz
    rcases hl j z hz with ⟨rfl, rfl⟩ | ⟨h1, h2⟩
    · obtain ⟨m, hm, _⟩ := hy.good _ _ hx
      refine ⟨s.2, ?_, hs⟩
      dsimp only
      rw [List.getElem?_set, if_pos rfl, if_pos (List.getElem?_eq_some_iff.1 hm).1]
    · obtain ⟨m, hm, hg⟩ := hy.good _ _ h2
      refine ⟨m, ?_, hg⟩
      dsimp only
      rw [List.getElem?_set, if_neg (fun e => h1 (hy.own _ _ _ _ h2 hx e.symm)), hm]

theorem inv_append {y : Sys T S R} (hy : SysInv o D keep A B y) {s : OS T S R} (hs : Good o D keep A B s)
    (n : Nat) (hn : n = y.heap.length) :
    SysInv o D keep A B ⟨y.heap ++ [s.2], y.objs ++ [(n, s.1)]⟩ := by
  subst hn
  have hl : ∀ j z, (y.objs ++ [(y.heap.length, s.1)])[j]? = some z →
      (j = y.objs.length ∧ z = (y.heap.length, s.1)) ∨ (y.objs[j]? = some z ∧ z.1 < y.heap.length) := by
    intro j z hz
    rw [List.getElem?_append] at hz
    split at hz
    · obtain ⟨m, hm, _⟩ := hy.good _ _ hz
      exact Or.inr ⟨hz, (List.getElem?_eq_some_iff.1 hm).1⟩
    · rename_i hlt
      left
      have hj := (List.getElem?_eq_some_iff.1 hz).1
      simp only [List.length_singleton] at hj
      have : j = y.objs.length := by omega
      subst this
      simp only [Nat.sub_self, List.getElem?_cons_zero] at hz
      exact ⟨rfl, (Option.some.inj hz).symm⟩
  constructor
  · intro j k a b ha hb hab
    rcases hl j a ha with ⟨rfl, rfl⟩ | ⟨h1, h2⟩ <;> rcases hl k b hb with ⟨rfl, rfl⟩ | ⟨h3, h4⟩
    · rfl
    · simp only at hab; omega
    · simp only at hab; omega
    · exact hy.own _ _ _ _ h1 h3 hab
  · intro j z hz
    rcases hl j z hz with ⟨rfl, rfl⟩ | ⟨h1, h2⟩
    · exact ⟨s.2, by simp, hs⟩
    · obtain ⟨m, hm, hg⟩ := hy.good _ _ h1
      refine ⟨m, ?_, hg⟩
      dsimp only
      rw [List.getElem?_append_left h2, hm]

/-- The calls that the theorems are about. -/
def OpOk (o : Ops T S R) (D : Bool → Prop) (keep A B : Prop) (y : Sys T S R) : SysOp S → Prop
  | .on i op => Clean D keep op ∧ (A → assignsLabels op → (step o y (.on i op)).1.isSome) ∧
      (B → ScoresFine op (step o y (.on i op)).1)
  | .clone _ => True
  | .detach _ => False

theorem step_inv {y : Sys T S R} (hy : SysInv o D keep A B y) (op : SysOp S)
    (hop : OpOk o D keep A B y op) : SysInv o D keep A B (step o y op).2 := by
  cases op with
  | detach i => exact hop.elim
  | on i op =>
    obtain ⟨h1, h2, h3⟩ := hop
    unfold step at h2 h3 ⊢
    dsimp only at h2 h3 ⊢
    cases hx : y.objs[i]? with
    | none => exact hy
    | some x =>
      obtain ⟨m, hm, hg⟩ := hy.good _ _ hx
      rw [hx] at h2 h3
      dsimp only at h2 h3 ⊢
      rw [hm] at h2 h3 ⊢
      dsimp only at h2 h3 ⊢
      obtain ⟨a1, _, a3, a4⟩ := run_keeps hg.weak op h1
      exact inv_set hy hx ⟨a1, fun hA => a3 (hg.props hA) (h2 hA), fun hB => a4 (hg.sync hB) (h3 hB)⟩
  | clone i =>
    unfold step
    dsimp only
    cases hx : y.objs[i]? with
    | none => exact hy
    | some x =>
      obtain ⟨m, hm, hg⟩ := hy.good _ _ hx
      dsimp only
      rw [hm]
      dsimp only
      obtain ⟨a1, a2, a3, _, _, a6, _, a8, _⟩ := properties_run hg.weak
      cases hq : properties o (x.2, m) with
      | mk r s =>
        rw [hq] at a1 a2 a3 a6 a8
        dsimp only at a1 a2 a3 a6 a8
        have hs : Good o D keep A B s := ⟨a1, fun hA => a6 (hg.props hA), fun hB =>
          SameScores.sync ⟨by rw [a2], by rw [a3]⟩ (hg.sync hB)⟩
        have hbase := inv_set hy hx hs
        cases r with
        | none => exact hbase
        | some p =>
          dsimp only
          cases hc : copyObj o s p with
          | mk r2 t =>
            cases r2 with
            | none => exact hbase
            | some ans =>
              dsimp only
              obtain ⟨rfl, hans⟩ := copy_run hs p (fun hA => by rw [a2]; exact (a8 p (hg.props hA) rfl).1) hc
              exact inv_append hbase hans _ (by simp)

/-- Every call of a history is one of those. -/
def HistOk (o : Ops T S R) (D : Bool → Prop) (keep A B : Prop) : Sys T S R → List (SysOp S) → Prop
  | _, [] => True
  | y, op :: t => OpOk o D keep A B y op ∧ HistOk o D keep A B (step o y op).2 t

theorem history_inv (h : List (SysOp S)) : ∀ {y : Sys T S R}, SysInv o D keep A B y →
    HistOk o D keep A B y h → SysInv o D keep A B (history o y h) := by
  induction h with
  | nil => intro y hy _; exact hy
  | cons op t ih =>
    intro y hy hh
    exact ih (step_inv hy op hh.1) hh.2

/-- A new object on its own. -/
theorem start_inv (m : Mem T S) (p : Option Nat) (hp : A → ∀ x, p = some x → x = o.basicProps m.topo m.labels)
    {ans : Obj S R} {t : OS T S R} (h : construct o m p = (some ans, t)) :
    SysInv o D keep A B ⟨[m], [(0, ans)]⟩ := by
  obtain ⟨_, hg⟩ := construct_run (D := D) (keep := keep) (A := A) (B := B) m p hp h
  have h0 : SysInv o D keep A B ⟨[], []⟩ := ⟨fun i j x z hx => by simp at hx, fun i x hx => by simp at hx⟩
  exact inv_append h0 hg 0 rfl

end Verif.Fsa.Cac
