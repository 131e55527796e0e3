import Verif.Fsa.Device.Pairs
import Verif.Fsa.Device.Number

/-!
# One iteration
-/

namespace Verif.Fsa.Idv
open Verif.Ragged Verif.Util Verif.Fsa.Dn Verif.Fsa.Dp
variable {W : Type}

/-- What the arguments have to be. -/
structure Ctx (Ta Tb : List (List (List (Arc W)))) (p : Args W) : Prop where
  a : p.a = flat Ta
  b : p.b = flat Tb
  okA : VecOk Ta
  okB : VecOk Tb
  validA : ∀ f ∈ Ta, f ≠ [] → (rowsFsa f).Valid
  validB : ∀ f ∈ Tb, f ≠ [] → (rowsFsa f).Valid
  labA : ∀ f ∈ Ta, ∀ x ∈ f.flatten, Int32 x.label
  labB : ∀ f ∈ Tb, ∀ x ∈ f.flatten, Int32 x.label
  sorted : p.sorted = true → ∀ f ∈ Ta, Isect.RowSorted f
  mapLen : p.map.length = Tb.length
  mapLt : ∀ j ∈ p.map, j < Ta.length

/-- The pair consists of state `u` of FSA `j` of `a` and state `v` of FSA `i` of `b`. -/
structure Here (Ta Tb : List (List (List (Arc W)))) (p : Args W) (i j u v : Nat) (f g : List (List (Arc W)))
    (st : Nat × Nat) : Prop where
  map : p.map[i]? = some j
  fa : Ta[j]? = some f
  fb : Tb[i]? = some g
  hu : u < f.length
  hv : v < g.length
  eq : st = (off Ta j + u, off Tb i + v)

/-- The FSA of `b` that a pair belongs to. -/
def fsaOf (Tb : List (List (List (Arc W)))) (st : Nat × Nat) : Nat := (flat Tb).id1.getD st.2 0

/-- The key of a pair in the hash. -/
def pkey (Ta Tb : List (List (List (Arc W)))) (p : Args W) (st : Nat × Nat) : Nat :=
  (st.1 - off Ta (p.map.getD (fsaOf Tb st) 0)) * p.mult + st.2

/-- The pair has no final state. -/
def Live (Ta Tb : List (List (List (Arc W)))) (p : Args W) (st : Nat × Nat) : Prop :=
  ∃ i j u v f g, Here Ta Tb p i j u v f g st ∧ u + 1 < f.length ∧ v + 1 < g.length

section
variable {Ta Tb : List (List (List (Arc W)))} {p : Args W}

theorem Here.fsa {i j u v : Nat} {f g : List (List (Arc W))} {st : Nat × Nat}
    (h : Here Ta Tb p i j u v f g st) : fsaOf Tb st = i := by
  rw [fsaOf, h.eq, List.getD_eq_getElem?_getD, flat_id1 Tb i v g h.fb h.hv]
  rfl

theorem Here.key {i j u v : Nat} {f g : List (List (Arc W))} {st : Nat × Nat}
    (h : Here Ta Tb p i j u v f g st) : pkey Ta Tb p st = u * p.mult + (off Tb i + v) := by
  rw [pkey, h.fsa, List.getD_eq_getElem?_getD, h.map, h.eq]
  simp

theorem Here.lt1 {i j u v : Nat} {f g : List (List (Arc W))} {st : Nat × Nat}
    (h : Here Ta Tb p i j u v f g st) : st.1 < Ta.flatten.length := by
  rw [h.eq]; exact off_lt Ta j u f h.fa h.hu

theorem Here.lt2 {i j u v : Nat} {f g : List (List (Arc W))} {st : Nat × Nat}
    (h : Here Ta Tb p i j u v f g st) : st.2 < Tb.flatten.length := by
  rw [h.eq]; exact off_lt Tb i v g h.fb h.hv

theorem Ctx.mult_gt (hc : Ctx Ta Tb p) (n : Nat) (h : n < Tb.flatten.length) : n < p.mult := by
  unfold Args.mult
  rw [hc.b]
  have h1 : (flat Tb).sp2.length - 1 = Tb.flatten.length := by
    rw [flat, psum_length, List.length_map]; rfl
  rw [h1]
  exact Nat.lt_of_lt_of_le h Nat.left_le_or

theorem Ctx.key_inj (hc : Ctx Ta Tb p) {i j u v i' j' u' v' : Nat} {f g f' g' : List (List (Arc W))}
    {st st' : Nat × Nat} (h : Here Ta Tb p i j u v f g st) (h' : Here Ta Tb p i' j' u' v' f' g' st')
    (he : pkey Ta Tb p st = pkey Ta Tb p st') : st = st' := by
  rw [h.key, h'.key] at he
  have m1 := hc.mult_gt _ h.lt2
  have m2 := hc.mult_gt _ h'.lt2
  have e1 := h.eq
  have e2 := h'.eq
  subst e1 e2
  have hm := congrArg (· % p.mult) he
  have hd := congrArg (· / p.mult) he
  rw [Nat.mul_comm u, Nat.mul_comm u', Nat.mul_add_mod, Nat.mul_add_mod, Nat.mod_eq_of_lt m1, Nat.mod_eq_of_lt m2] at hm
  rw [Nat.mul_comm u, Nat.mul_comm u', Nat.mul_add_div (by omega), Nat.mul_add_div (by omega),
    Nat.div_eq_of_lt m1, Nat.div_eq_of_lt m2, Nat.add_zero, Nat.add_zero] at hd
  obtain ⟨rfl, rfl⟩ := off_inj Tb i i' v v' g g' h.fb h'.fb h.hv h'.hv hm
  have hj := h.map
  rw [h'.map] at hj
  obtain rfl := Option.some.inj hj
  rw [hd]

theorem Live.inj (hc : Ctx Ta Tb p) {st st' : Nat × Nat} (h : Live Ta Tb p st) (h' : Live Ta Tb p st')
    (he : pkey Ta Tb p st = pkey Ta Tb p st') : st = st' := by
  obtain ⟨i, j, u, v, f, g, h1, -⟩ := h
  obtain ⟨i', j', u', v', f', g', h2, -⟩ := h'
  exact hc.key_inj h1 h2 he

theorem Live.key_lt (hc : Ctx Ta Tb p) {st : Nat × Nat} (h : Live Ta Tb p st) :
    pkey Ta Tb p st < Ta.flatten.length * p.mult := by
  obtain ⟨i, j, u, v, f, g, h1, -⟩ := h
  rw [h1.key]
  have m1 := hc.mult_gt _ h1.lt2
  have m2 := h1.lt1
  rw [h1.eq] at m1 m2
  simp only at m1 m2
  have : (u + 1) * p.mult ≤ Ta.flatten.length * p.mult := Nat.mul_le_mul_right _ (by omega)
  rw [Nat.add_mul] at this
  omega

/-! ## Pairs of arcs -/

/-- The arcs `x` and `y` leave the pair `st` and lead to the pair `d`. -/
structure Leads (Ta Tb : List (List (List (Arc W)))) (p : Args W) (c : Cand) (x y : Arc W) (st d : Nat × Nat) : Prop where
  ex : ∃ i j u v f g, Here Ta Tb p i j u v f g st ∧ Here Ta Tb p i j x.dst y.dst f g d ∧ x.src = u ∧ y.src = v ∧
    x ∈ f.flatten ∧ y ∈ g.flatten
  ia : p.a.arcs[c.ia]? = some x
  ib : p.b.arcs[c.ib]? = some y
  id2 : p.b.id2[c.ib]? = some st.2

theorem Ctx.leads (hc : Ctx Ta Tb p) {block : List (Nat × Nat)} (hb : ∀ st ∈ block, Live Ta Tb p st) {c : Cand}
    {x y : Arc W} (h : Fits Ta Tb block c x y) :
    ∃ st d, block[c.si]? = some st ∧ Leads Ta Tb p c x y st d := by
  obtain ⟨st, hst, ka, kb, h1, h2, h3, h4⟩ := h
  obtain ⟨i, j, u, v, f, g, hh, hu, hv⟩ := hb st (List.mem_of_getElem? hst)
  have e1 := ra_get (Ta := Ta) hh.lt1
  have e2 := rb_get (Tb := Tb) hh.lt2
  have hka := (List.getElem?_eq_some_iff.mp h1).1
  have hkb := (List.getElem?_eq_some_iff.mp h2).1
  have f1 : f[u]? = some (ra Ta st) := by
    rw [← state_at Ta j u f hh.fa hh.hu]
    rw [hh.eq] at e1 ⊢
    exact e1
  have f2 : g[v]? = some (rb Tb st) := by
    rw [← state_at Tb i v g hh.fb hh.hv]
    rw [hh.eq] at e2 ⊢
    exact e2
  obtain ⟨g1, g2⟩ := hc.okA.at hh.fa f1 x (List.mem_of_getElem? h1)
  obtain ⟨g3, g4⟩ := hc.okB.at hh.fb f2 y (List.mem_of_getElem? h2)
  refine ⟨st, (off Ta j + x.dst, off Tb i + y.dst), hst,
    ⟨i, j, u, v, f, g, hh, ⟨hh.map, hh.fa, hh.fb, g2, g4, rfl⟩, g1, g3,
      List.mem_flatten.mpr ⟨_, List.mem_of_getElem? f1, List.mem_of_getElem? h1⟩,
      List.mem_flatten.mpr ⟨_, List.mem_of_getElem? f2, List.mem_of_getElem? h2⟩⟩, ?_, ?_, ?_⟩
  · rw [hc.a, h3, ← h1]
    exact flat_arc Ta st.1 ka _ e1 hka
  · rw [hc.b, h4, ← h2]
    exact flat_arc Tb st.2 kb _ e2 hkb
  · rw [hc.b, h4]
    exact flat_id2 Tb st.2 kb _ e2 hkb

theorem Leads.live (hc : Ctx Ta Tb p) {c : Cand} {x y : Arc W} {st d : Nat × Nat} (h : Leads Ta Tb p c x y st d)
    (hl : x.label = y.label) (hn : x.label ≠ -1) : Live Ta Tb p d := by
  obtain ⟨i, j, u, v, f, g, h1, h2, -, -, h3, h4⟩ := h.ex
  have v1 := hc.validA f (List.mem_of_getElem? h1.fa) (by
    intro he; have := h1.hu; rw [he] at this; simp at this)
  have v2 := hc.validB g (List.mem_of_getElem? h1.fb) (by
    intro he; have := h1.hv; rw [he] at this; simp at this)
  have e1 := v1.final_iff x h3
  have e2 := v2.final_iff y h4
  have d1 := h2.hu
  have d2 := h2.hv
  simp only [Fsa.final, rowsFsa] at e1 e2
  refine ⟨i, j, _, _, f, g, h2, ?_, ?_⟩
  · by_contra hlt
    exact hn (e1.mpr (by omega))
  · by_contra hlt
    exact hn (hl ▸ e2.mpr (by omega))

theorem Leads.fsa {c : Cand} {x y : Arc W} {st d : Nat × Nat} (h : Leads Ta Tb p c x y st d) :
    fsaOf Tb d = fsaOf Tb st := by
  obtain ⟨i, j, u, v, f, g, h1, h2, -⟩ := h.ex
  rw [h1.fsa, h2.fsa]

theorem Leads.key {c : Cand} {x y : Arc W} {st d : Nat × Nat} (h : Leads Ta Tb p c x y st d) :
    x.dst * p.mult + (y.dst + st.2 - y.src) = pkey Ta Tb p d := by
  obtain ⟨i, j, u, v, f, g, h1, h2, -, e2, -, -⟩ := h.ex
  rw [h2.key, h1.eq, e2]
  simp only
  congr 1
  omega

/-- What a thread finds out. -/
def infoFor (Ta Tb : List (List (List (Arc W)))) (p : Args W) (lx ly : Int) (d : Nat × Nat) : Info :=
  ⟨decide (lx = ly), decide (lx = ly) && decide (lx ≠ -1), pkey Ta Tb p d⟩

theorem Leads.info {block : List (Nat × Nat)} {c : Cand} {x y : Arc W} {st d : Nat × Nat}
    (h : Leads Ta Tb p c x y st d) (hst : block[c.si]? = some st) (hs : p.sorted = true → x.label = y.label) :
    infoOf p block c = some (infoFor Ta Tb p x.label y.label d) := by
  unfold infoOf infoFor
  simp only [hst, h.ia, h.ib, Option.bind_eq_bind, Option.bind_some]
  rw [if_neg (fun hn => hn.2 (hs hn.1)), h.key]

theorem Leads.new (hc : Ctx Ta Tb p) {block : List (Nat × Nat)} {c : Cand} {x y : Arc W} {st d : Nat × Nat}
    (h : Leads Ta Tb p c x y st d) (hst : block[c.si]? = some st) :
    newState p block c (pkey Ta Tb p d) = some d := by
  obtain ⟨i, j, u, v, f, g, h1, h2, e1, e2, -, -⟩ := h.ex
  unfold newState
  simp only [hst, h.ia, h.ib, Option.bind_eq_bind, Option.bind_some]
  have m := hc.mult_gt _ h2.lt2
  rw [h2.eq] at m ⊢
  rw [h1.eq, e1, e2]
  split
  · have hk := h2.key
    rw [h2.eq] at hk
    rw [hk, Nat.mul_comm, Nat.mul_add_mod, Nat.mod_eq_of_lt m]
    simp only [Nat.add_sub_cancel]
    congr 2
    omega
  · have ed : y.dst + (off Tb i + v) - v = off Tb i + y.dst := by omega
    simp only
    rw [ed, hc.b, flat_id1 Tb i y.dst g h2.fb h2.hv]
    simp only [Option.bind_some, h2.map]
    rw [hc.a, flat_sp1 Ta j (by have := (List.getElem?_eq_some_iff.mp h2.fa).1; omega)]
    rfl

end

end Verif.Fsa.Idv
