import Verif.Rnnt.Decode.Run
import Verif.Util.MapM
import Verif.Util.Ragged

/-! The rows of the lattice. -/

namespace Verif.Rnnt.Dec
open Verif.Fsa Verif.Util

section
variable {K : Type} [Field K] [LinearOrder K]

local notation "S" => WithBot K

/-- An arc of the lattice. -/
def outEl (cfg : Cfg K) (sizes : Option (List (List Nat))) (g : Graph S) (i T t u src next c : Nat) (ai : Ai S) :
    Option (Arc S × Int × Int) := do
  let o ← outArc g T t src next ai
  match sizes with
  | none => some (o.1, o.2, 0)
  | some sizes => do
    let b ← tokenMap cfg.vocab sizes i u c o.1.label
    some (o.1, o.2, b)

/-- The states of a frame with their contexts. -/
def withCtx (f : Frame S) : List (Nat × List (Ai S)) := f.zipIdx.flatMap (fun c => c.1.map (fun q => (c.2, q)))

omit [Field K] [LinearOrder K] in
theorem withCtx_aux {α : Type} (f : List (List α)) (n : Nat) :
    ((f.zipIdx n).flatMap (fun c => c.1.map (fun q => (c.2, q)))).map Prod.snd = f.flatten ∧
    ∀ (y : Nat) (z : Nat × α), ((f.zipIdx n).flatMap (fun c => c.1.map (fun q => (c.2, q))))[y]? = some z →
      ∃ c ctx k, z.1 = n + c ∧ f[c]? = some ctx ∧ ctx[k]? = some z.2 ∧ y = splits f c + k := by
  induction f generalizing n with
  | nil => simp
  | cons r f ih =>
    obtain ⟨h1, h2⟩ := ih (n + 1)
    refine ⟨?_, ?_⟩
    · rw [List.zipIdx_cons, List.flatMap_cons, List.map_append, h1, List.flatten_cons]
      simp [Function.comp_def]
    · intro y z hz
      rw [List.zipIdx_cons, List.flatMap_cons] at hz
      by_cases hy : y < r.length
      · rw [List.getElem?_append_left (by simpa using hy), List.getElem?_map, Option.map_eq_some_iff] at hz
        obtain ⟨a, ha, rfl⟩ := hz
        exact ⟨0, r, y, rfl, rfl, ha, by simp⟩
      · rw [List.getElem?_append_right (by simpa using hy)] at hz
        simp only [List.length_map] at hz
        obtain ⟨c, ctx, k, h3, h4, h5, h6⟩ := h2 _ _ hz
        exact ⟨c + 1, ctx, k, by omega, by simpa using h4, h5, by rw [splits_cons_succ]; omega⟩

omit [LinearOrder K] in
theorem outFrame_eq (cfg : Cfg K) (sizes : Option (List (List Nat))) (g : Graph S) (i T t u src next : Nat) (f : Frame S) :
    outFrame cfg sizes g i T t u src next f = (withCtx f).zipIdx.mapM
      (fun q => q.1.2.mapM (outEl cfg sizes g i T t u (src + q.2) next q.1.1)) := rfl

omit [LinearOrder K] in
/-- The rows of one frame. -/
theorem outFrame_get {cfg : Cfg K} {sizes : Option (List (List Nat))} {g : Graph S} {i T t u src next : Nat} {f : Frame S}
    {rows : List (List (Arc S × Int × Int))} (h : outFrame cfg sizes g i T t u src next f = some rows) :
    rows.length = f.flatten.length ∧ ∀ (c : Nat) (ctx : List (List (Ai S))) (k : Nat) (ais : List (Ai S)), f[c]? = some ctx →
      ctx[k]? = some ais → ∃ row, rows[splits f c + k]? = some row ∧
        ais.mapM (outEl cfg sizes g i T t u (src + (splits f c + k)) next c) = some row := by
  rw [outFrame_eq] at h
  obtain ⟨h1, h2⟩ := mapM_get h
  obtain ⟨h3, h4⟩ := withCtx_aux f 0
  have h3' : (withCtx f).map Prod.snd = f.flatten := h3
  have hl : (withCtx f).length = f.flatten.length := by rw [← h3', List.length_map]
  refine ⟨by rw [h1, List.length_zipIdx, hl], ?_⟩
  intro c ctx k ais hc hk
  have hkl := (List.getElem?_eq_some_iff.1 hk).1
  have hget := flatten_get f c ctx hc k hkl
  rw [hk, ← h3', List.getElem?_map, Option.map_eq_some_iff] at hget
  obtain ⟨z, hz, hz2⟩ := hget
  obtain ⟨c', ctx', k', e1, e2, e3, e4⟩ := h4 _ _ hz
  obtain ⟨rfl, rfl⟩ := flatten_pos_unique f hc e2 hkl (List.getElem?_eq_some_iff.1 e3).1 e4
  have hz' : (withCtx f).zipIdx[splits f c + k]? = some (z, splits f c + k) := by
    rw [List.getElem?_zipIdx, hz]; simp
  have := h2 _ _ hz'
  have hlen : splits f c + k < rows.length := by
    rw [h1, List.length_zipIdx]; exact (List.getElem?_eq_some_iff.1 hz).1
  rw [List.getElem?_eq_getElem hlen] at this ⊢
  refine ⟨_, rfl, ?_⟩
  rw [this, ← hz2, e1, Nat.zero_add]

omit [LinearOrder K] in
theorem outFrame_exists {cfg : Cfg K} {sizes : Option (List (List Nat))} {g : Graph S} {i T t u src next : Nat} {f : Frame S}
    (h : ∀ src' c, ∀ ai ∈ f.flatten.flatten, (outEl cfg sizes g i T t u src' next c ai).isSome) :
    ∃ rows, outFrame cfg sizes g i T t u src next f = some rows := by
  rw [outFrame_eq]
  apply mapM_exists
  intro q hq
  apply mapM_exists
  intro ai hai
  apply Option.isSome_iff_exists.1
  apply h
  have hm : q.1.2 ∈ f.flatten := by
    have h3 := (withCtx_aux f 0).1
    rw [← h3]
    refine List.mem_map.2 ⟨q.1, ?_, rfl⟩
    obtain ⟨j, hj⟩ := List.getElem?_of_mem hq
    rw [List.getElem?_zipIdx, Option.map_eq_some_iff] at hj
    obtain ⟨z, hz, rfl⟩ := hj
    exact List.mem_of_getElem? hz
  exact List.mem_flatten.2 ⟨_, hm, hai⟩

omit [LinearOrder K] in
/-- The rows of all frames. -/
theorem outFrames_get {cfg : Cfg K} {sizes : Option (List (List Nat))} {g : Graph S} {i T pad t src : Nat}
    {F : List (Frame S)} {lat : List (List (Arc S × Int × Int))}
    (h : outFrames cfg sizes g i T pad t src F = some lat) :
    ∃ Ls : List (List (List (Arc S × Int × Int))), lat = Ls.flatten ++ [[]] ∧ Ls.length = F.length ∧
      ∀ (k : Nat) (f : Frame S), F[k]? = some f → ∃ L, Ls[k]? = some L ∧ L.length = f.flatten.length ∧
        ∀ (c : Nat) (ctx : List (List (Ai S))) (j : Nat) (ais : List (Ai S)), f[c]? = some ctx → ctx[j]? = some ais →
          ∃ row, L[splits f c + j]? = some row ∧
            ais.mapM (outEl cfg sizes g i T (t + k) (t + k - pad) (src + splits Ls k + (splits f c + j))
              (src + splits Ls (k + 1)) c) = some row := by
  induction F generalizing t src lat with
  | nil =>
    simp only [outFrames, Option.some.injEq] at h
    subst h
    exact ⟨[], rfl, rfl, by simp⟩
  | cons f F ih =>
    simp only [outFrames, Option.bind_eq_bind, Option.bind_eq_some_iff, Option.some.injEq] at h
    obtain ⟨rows, h1, rest, h2, rfl⟩ := h
    obtain ⟨Ls, rfl, hlen, hLs⟩ := ih h2
    obtain ⟨hr1, hr2⟩ := outFrame_get h1
    refine ⟨rows :: Ls, by simp, by simp [hlen], ?_⟩
    intro k f' hf'
    cases k with
    | zero =>
      simp only [List.getElem?_cons_zero, Option.some.injEq] at hf'
      subst hf'
      refine ⟨rows, rfl, hr1, ?_⟩
      intro c ctx j ais hc hj
      obtain ⟨row, e1, e2⟩ := hr2 c ctx j ais hc hj
      refine ⟨row, e1, ?_⟩
      rw [splits_zero, splits_cons_succ, splits_zero, hr1]
      simpa using e2
    | succ k =>
      rw [List.getElem?_cons_succ] at hf'
      obtain ⟨L, e1, e2, e3⟩ := hLs k f' hf'
      refine ⟨L, by simpa using e1, e2, ?_⟩
      intro c ctx j ais hc hj
      obtain ⟨row, e4, e5⟩ := e3 c ctx j ais hc hj
      refine ⟨row, e4, ?_⟩
      rw [splits_cons_succ, splits_cons_succ, hr1]
      rw [show t + (k + 1) = t + 1 + k by omega, show src + (f.flatten.length + splits Ls k) = src + f.flatten.length + splits Ls k by omega,
        show src + (f.flatten.length + splits Ls (k + 1)) = src + f.flatten.length + splits Ls (k + 1) by omega]
      exact e5

omit [LinearOrder K] in
theorem outFrames_exists {cfg : Cfg K} {sizes : Option (List (List Nat))} {g : Graph S} {i T pad t src : Nat}
    {F : List (Frame S)}
    (h : ∀ (k : Nat) (f : Frame S), F[k]? = some f → ∀ src' next c, ∀ ai ∈ f.flatten.flatten,
      (outEl cfg sizes g i T (t + k) (t + k - pad) src' next c ai).isSome) :
    ∃ lat, outFrames cfg sizes g i T pad t src F = some lat := by
  induction F generalizing t src with
  | nil => exact ⟨_, rfl⟩
  | cons f F ih =>
    obtain ⟨rows, h1⟩ := outFrame_exists (cfg := cfg) (sizes := sizes) (g := g) (i := i) (T := T) (t := t) (u := t - pad)
      (src := src) (next := src + f.flatten.length) (f := f) (fun src' c ai hai => h 0 f rfl src' _ c ai hai)
    obtain ⟨rest, h2⟩ := ih (t := t + 1) (src := src + f.flatten.length) (fun k f' hf' src' next c ai hai => by
      have := h (k + 1) f' (by simpa using hf') src' next c ai hai
      rw [show t + (k + 1) = t + 1 + k by omega] at this
      exact this)
    exact ⟨rows ++ rest, by simp only [outFrames, h1, h2, Option.bind_eq_bind, Option.bind_some]⟩

omit [LinearOrder K] in
/-- Empty frames in front only shift the time. -/
theorem outFrames_pad (cfg : Cfg K) (sizes : Option (List (List Nat))) (g : Graph S) (i T pad t src n : Nat)
    (F : List (Frame S)) :
    outFrames cfg sizes g i T pad t src (List.replicate n [] ++ F) = outFrames cfg sizes g i T pad (t + n) src F := by
  induction n generalizing t with
  | zero => rfl
  | succ n ih =>
    rw [List.replicate_succ, List.cons_append, outFrames]
    have : outFrame cfg sizes g i T t (t - pad) src (src + ([] : Frame S).flatten.length) [] = some [] := rfl
    rw [this]
    simp only [Option.bind_eq_bind, Option.bind_some, List.nil_append, List.flatten_nil, List.length_nil, Nat.add_zero]
    rw [ih, show t + 1 + n = t + (n + 1) by omega]
    cases outFrames cfg sizes g i T pad (t + (n + 1)) src F <;> rfl

end

end Verif.Rnnt.Dec
