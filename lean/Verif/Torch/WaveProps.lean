import Verif.Torch.WaveModel
import Mathlib.Tactic.Ring
import Mathlib.Tactic.NormNum
import Mathlib.Data.UInt

/-! # Properties of the wave reader -/

namespace Verif.Wave

/-! ## What a wave file is -/

/-- `n` bytes with the number `x`, the lowest first. -/
def le : Nat → Nat → List UInt8
  | 0, _ => []
  | n + 1, x => UInt8.ofNat (x % 256) :: le n (x / 256)

/-- The bytes `data`. -/
def dataId : Nat := 0x61746164

/-- The bytes `RIFF`. -/
def riffId : Nat := 0x46464952

/-- The bytes `WAVE`. -/
def waveId : Nat := 0x45564157

/-- The bytes `fmt `. -/
def fmtId : Nat := 0x20746d66

/-- A chunk: its name, the number of its bytes, and the bytes. -/
def chunk (id : Nat) (payload : List UInt8) : List UInt8 := le 4 id ++ le 4 payload.length ++ payload

/-- The bytes of a 16 bit sample. -/
def sampleBytes (x : Int) : List UInt8 := le 2 (x % 65536).toNat

/-- The first 36 bytes of a file with one channel and 16 bits for a sample. -/
def head (size rate : Nat) : List UInt8 :=
  le 4 riffId ++ le 4 size ++ le 4 waveId ++ le 4 fmtId ++ le 4 16 ++ le 2 1 ++ le 2 1 ++ le 4 rate ++
    le 4 (2 * rate) ++ le 2 2 ++ le 2 16

/-- A wave file: other chunks may come before the data, and anything after it. -/
def waveFile (size rate : Nat) (extra : List (Nat × List UInt8)) (samples : List Int) (rest : List UInt8) :
    List UInt8 :=
  head size rate ++ ((extra.map (fun c => chunk c.1 c.2)).flatten ++
    (chunk dataId (samples.map sampleBytes).flatten ++ rest))

/-! ## Numbers -/

theorem le_length (n x : Nat) : (le n x).length = n := by
  induction n generalizing x with
  | zero => rfl
  | succ n ih => simp [le, ih]

theorem leNat_le (n x : Nat) : leNat (le n x) = x % 256 ^ n := by
  induction n generalizing x with
  | zero => simp [le, leNat, Nat.mod_one]
  | succ n ih =>
    simp only [le, leNat, ih]
    have e : 256 ^ (n + 1) = 256 * 256 ^ n := by rw [pow_succ, Nat.mul_comm]
    rw [UInt8.toNat_ofNat', e, Nat.mod_mul]
    norm_num

theorem field_at (pre post : List UInt8) (n x : Nat) : field (pre ++ (le n x ++ post)) pre.length n =
    if x % 256 ^ n < 256 ^ n / 2 then ((x % 256 ^ n : Nat) : Int) else ((x % 256 ^ n : Nat) : Int) - 256 ^ n := by
  have : ((pre ++ (le n x ++ post)).drop pre.length).take n = le n x := by
    rw [List.drop_left]
    have := List.take_left (l₁ := le n x) (l₂ := post)
    rw [le_length] at this
    exact this
  unfold field
  rw [this, leNat_le]

/-- A number that is not too large is read as it was written. -/
theorem field_small (pre post : List UInt8) (n x : Nat) (h : x < 256 ^ n / 2) :
    field (pre ++ (le n x ++ post)) pre.length n = x := by
  have hx : x % 256 ^ n = x := Nat.mod_eq_of_lt (by omega)
  rw [field_at, hx, if_pos h]

/-- The same with the parts given by equations. -/
theorem field_eq {l : List UInt8} (pre post : List UInt8) {off n : Nat} (x : Nat) {v : Int} (h : x < 256 ^ n / 2)
    (hv : (x : Int) = v) (hl : l = pre ++ (le n x ++ post)) (ho : pre.length = off) : field l off n = v := by
  rw [hl, ← ho, field_small pre post n x h, hv]

theorem field_take (l : List UInt8) (k off n : Nat) (h : off + n ≤ k) : field (l.take k) off n = field l off n := by
  unfold field
  rw [List.drop_take, List.take_take, Nat.min_eq_left (by omega)]

theorem field_drop (l : List UInt8) (k off n : Nat) : field (l.drop k) off n = field l (k + off) n := by
  unfold field
  rw [List.drop_drop]

theorem field_sample (x : Int) (h : -32768 ≤ x ∧ x < 32768) : field (sampleBytes x) 0 2 = x := by
  have := field_at [] [] 2 (x % 65536).toNat
  simp only [List.nil_append, List.append_nil, List.length_nil] at this
  unfold sampleBytes
  rw [this]
  norm_num
  omega

theorem decode_samples (l : List Int) (h : ∀ x ∈ l, -32768 ≤ x ∧ x < 32768) :
    decode (l.map sampleBytes).flatten = l.map (fun (x : Int) => (x : ℚ) / 32768) := by
  induction l with
  | nil => rfl
  | cons x l ih =>
    have e := field_sample x (h x (by simp))
    rw [List.map_cons, List.flatten_cons, List.map_cons, ← ih (fun y hy => h y (by simp [hy]))]
    have : sampleBytes x = [UInt8.ofNat ((x % 65536).toNat % 256), UInt8.ofNat ((x % 65536).toNat / 256 % 256)] := rfl
    rw [this] at e
    rw [this]
    simp only [List.cons_append, List.nil_append, decode, e]

theorem decode_get (b : List UInt8) : (decode b).length = b.length / 2 ∧
    ∀ i, 2 * i + 1 < b.length → (decode b)[i]? = some (((field b (2 * i) 2 : Int) : ℚ) / 32768) := by
  induction b using decode.induct with
  | case1 a c l ih =>
    refine ⟨by simp [decode, ih.1]; omega, fun i hi => ?_⟩
    cases i with
    | zero =>
      simp only [decode, List.getElem?_cons_zero]
      rfl
    | succ i =>
      simp only [decode, List.getElem?_cons_succ]
      rw [ih.2 i (by simp at hi; omega)]
      have : field (a :: c :: l) (2 * (i + 1)) 2 = field l (2 * i) 2 := by
        have := field_drop (a :: c :: l) 2 (2 * i) 2
        rw [show 2 * (i + 1) = 2 + 2 * i by omega, ← this]
        rfl
      rw [this]
  | case2 b hb =>
    have : decode b = [] ∧ b.length < 2 := by
      match b, hb with
      | [], _ => exact ⟨rfl, by simp⟩
      | [x], _ => exact ⟨rfl, by simp⟩
      | a :: c :: l, hb => exact absurd rfl (hb a c l)
    rw [this.1]
    refine ⟨by simp; omega, fun i hi => by omega⟩

theorem dataId_lt : dataId < 256 ^ 4 / 2 := by norm_num [dataId]

theorem dataId_int : (dataId : Int) = 0x61746164 := by norm_num [dataId]

theorem riffId_lt : riffId < 256 ^ 4 / 2 := by norm_num [riffId]

theorem riffId_int : (riffId : Int) = 0x46464952 := by norm_num [riffId]

theorem waveId_lt : waveId < 256 ^ 4 / 2 := by norm_num [waveId]

theorem waveId_int : (waveId : Int) = 0x45564157 := by norm_num [waveId]

theorem fmtId_lt : fmtId < 256 ^ 4 / 2 := by norm_num [fmtId]

theorem fmtId_int : (fmtId : Int) = 0x20746d66 := by norm_num [fmtId]

attribute [local irreducible] le field dataId riffId waveId fmtId

/-! ## Reading -/

theorem readBytes_at (pre b post : List UInt8) : readBytes (pre ++ (b ++ post)) pre.length b.length = some b := by
  unfold readBytes
  rw [if_pos (by simp), List.drop_left, List.take_left]

theorem chunk_append (id : Nat) (p tl : List UInt8) :
    chunk id p ++ tl = le 4 id ++ (le 4 p.length ++ (p ++ tl)) := by
  unfold chunk
  rw [List.append_assoc, List.append_assoc]

theorem chunk_length (id : Nat) (p : List UInt8) : (chunk id p).length = 8 + p.length := by
  unfold chunk
  rw [List.length_append, List.length_append, le_length, le_length]

/-- The loop skips the other chunks. -/
theorem seek_chunks (f : List UInt8) (extra : List (Nat × List UInt8))
    (hex : ∀ c ∈ extra, c.1 < 2 ^ 31 ∧ c.1 ≠ dataId ∧ c.2.length < 2 ^ 31) (data rest pre : List UInt8)
    (hd : data.length < 2 ^ 31) (b : List UInt8) (post : List UInt8)
    (hb : b.length = 8) (hf : f = pre ++ (b ++ post))
    (htl : b ++ post = (extra.map (fun c => chunk c.1 c.2)).flatten ++ (chunk dataId data ++ rest)) (fuel : Nat)
    (hfuel : extra.length < fuel) :
    seekData f fuel (pre.length + 8) (field b 0 4) (field b 4 4) =
      some (some (f.length - rest.length - data.length, (data.length : Int))) := by
  induction extra generalizing pre b post fuel with
  | nil =>
    obtain ⟨fuel, rfl⟩ : ∃ k, fuel = k + 1 := ⟨fuel - 1, by simp at hfuel; omega⟩
    rw [List.map_nil, List.flatten_nil, List.nil_append, chunk_append] at htl
    have h1 : field (b ++ post) 0 4 = 0x61746164 := by
      refine field_eq [] (le 4 data.length ++ (data ++ rest)) dataId dataId_lt dataId_int ?_ ?_
      · rw [List.nil_append]
        exact htl
      · rw [List.length_nil]
    have h2 : field (b ++ post) 4 4 = data.length := by
      refine field_eq (le 4 dataId) (data ++ rest) data.length ?_ ?_ ?_ ?_
      · norm_num
        omega
      · norm_num
      · exact htl
      · rw [le_length]
    have hb' : b = (b ++ post).take 8 := by rw [← hb, List.take_left]
    rw [hb', field_take _ _ _ _ (by omega), field_take _ _ _ _ (by omega), h1, h2, seekData, if_pos rfl, hf, htl]
    simp only [List.length_append, le_length]
    congr 3
    omega
  | cons c extra ih =>
    obtain ⟨fuel, rfl⟩ : ∃ k, fuel = k + 1 := ⟨fuel - 1, by simp at hfuel; omega⟩
    obtain ⟨k1, k2, k3⟩ := hex c (by simp)
    rw [List.map_cons, List.flatten_cons, List.append_assoc, chunk_append] at htl
    have h1 : field (b ++ post) 0 4 = c.1 := by
      exact field_eq [] _ c.1 (by norm_num; omega) rfl (by rw [htl, List.nil_append]) rfl
    have h2 : field (b ++ post) 4 4 = c.2.length := by
      exact field_eq (le 4 c.1) _ c.2.length (by norm_num; omega) rfl htl (le_length _ _)
    have hb' : b = (b ++ post).take 8 := by rw [← hb, List.take_left]
    -- the rest of the file after this chunk
    have hpost : post = c.2 ++ ((extra.map (fun c => chunk c.1 c.2)).flatten ++ (chunk dataId data ++ rest)) := by
      have e := congrArg (List.drop 8) htl
      rw [← hb, List.drop_left, hb] at e
      rw [e, ← List.append_assoc, List.drop_left' (by simp [le_length])]
    -- the next eight bytes
    obtain ⟨b', post', hb8, e'⟩ : ∃ b' post' : List UInt8, b'.length = 8 ∧
        b' ++ post' = (extra.map (fun c => chunk c.1 c.2)).flatten ++ (chunk dataId data ++ rest) := by
      refine ⟨((extra.map (fun c => chunk c.1 c.2)).flatten ++ (chunk dataId data ++ rest)).take 8,
        ((extra.map (fun c => chunk c.1 c.2)).flatten ++ (chunk dataId data ++ rest)).drop 8, ?_,
        List.take_append_drop _ _⟩
      rw [List.length_take]
      simp only [List.length_append, chunk_length]
      omega
    have hf' : f = (pre ++ b ++ c.2) ++ (b' ++ post') := by
      rw [hf, hpost, e']
      simp
    have hlen : (pre ++ b ++ c.2).length = pre.length + 8 + c.2.length := by simp [hb]; omega
    have hread : readBytes f (pre.length + 8 + c.2.length) 8 = some b' := by
      rw [hf', ← hlen, ← hb8, readBytes_at]
    have hih := ih (fun c' hc' => hex c' (by simp [hc'])) (pre ++ b ++ c.2) b' post' hb8 hf' e' fuel
      (by simp at hfuel; omega)
    rw [hlen] at hih
    rw [hb', field_take _ _ _ _ (by omega), field_take _ _ _ _ (by omega), h1, h2, seekData, if_neg (by rw [← dataId_int]; omega),
      if_neg (by omega), show ((pre.length + 8 : Nat) : Int) + (c.2.length : Int) = ((pre.length + 8 + c.2.length : Nat) : Int) by
        push_cast; ring, Int.toNat_natCast, hread]
    exact hih

theorem head_length (size rate : Nat) : (head size rate).length = 36 := by simp [head, le_length]

theorem head_append (size rate : Nat) (tl : List UInt8) : head size rate ++ tl =
    le 4 riffId ++ (le 4 size ++ (le 4 waveId ++ (le 4 fmtId ++ (le 4 16 ++ (le 2 1 ++ (le 2 1 ++ (le 4 rate ++
      (le 4 (2 * rate) ++ (le 2 2 ++ (le 2 16 ++ tl)))))))))) := by
  unfold head
  rw [List.append_assoc, List.append_assoc, List.append_assoc, List.append_assoc, List.append_assoc, List.append_assoc,
    List.append_assoc, List.append_assoc, List.append_assoc, List.append_assoc]

theorem field_skip (m y : Nat) (l : List UInt8) (off n : Nat) (h : m ≤ off) :
    field (le m y ++ l) off n = field l (off - m) n := by
  have e := field_drop (le m y ++ l) m (off - m) n
  rw [show m + (off - m) = off by omega] at e
  rw [← e]
  congr 1
  have := List.drop_left (l₁ := le m y) (l₂ := l)
  rw [le_length] at this
  exact this

theorem field_here (n x : Nat) (post : List UInt8) (v : Int) (h : x < 256 ^ n / 2) (hv : (x : Int) = v) :
    field (le n x ++ post) 0 n = v :=
  field_eq [] post x h hv (List.nil_append _).symm List.length_nil

theorem field_head (size rate : Nat) (hr : 16 * rate < 2 ^ 31) (tl : List UInt8) :
    field (head size rate ++ tl) 0 4 = 0x46464952 ∧ field (head size rate ++ tl) 8 4 = 0x45564157 ∧
    field (head size rate ++ tl) 12 4 = 0x20746d66 ∧ field (head size rate ++ tl) 16 4 = 16 ∧
    field (head size rate ++ tl) 20 2 = 1 ∧ field (head size rate ++ tl) 22 2 = 1 ∧
    field (head size rate ++ tl) 24 4 = rate ∧ field (head size rate ++ tl) 28 4 = 2 * rate ∧
    field (head size rate ++ tl) 32 2 = 2 ∧ field (head size rate ++ tl) 34 2 = 16 := by
  rw [head_append]
  refine ⟨?_, ?_, ?_, ?_, ?_, ?_, ?_, ?_, ?_, ?_⟩
  · exact field_here 4 riffId _ _ riffId_lt riffId_int
  · rw [field_skip _ _ _ _ _ (by norm_num), field_skip _ _ _ _ _ (by norm_num)]
    exact field_here 4 waveId _ _ waveId_lt waveId_int
  · rw [field_skip _ _ _ _ _ (by norm_num), field_skip _ _ _ _ _ (by norm_num), field_skip _ _ _ _ _ (by norm_num)]
    exact field_here 4 fmtId _ _ fmtId_lt fmtId_int
  · rw [field_skip _ _ _ _ _ (by norm_num), field_skip _ _ _ _ _ (by norm_num), field_skip _ _ _ _ _ (by norm_num),
      field_skip _ _ _ _ _ (by norm_num)]
    exact field_here 4 16 _ _ (by norm_num) rfl
  · rw [field_skip _ _ _ _ _ (by norm_num), field_skip _ _ _ _ _ (by norm_num), field_skip _ _ _ _ _ (by norm_num),
      field_skip _ _ _ _ _ (by norm_num), field_skip _ _ _ _ _ (by norm_num)]
    exact field_here 2 1 _ _ (by norm_num) rfl
  · rw [field_skip _ _ _ _ _ (by norm_num), field_skip _ _ _ _ _ (by norm_num), field_skip _ _ _ _ _ (by norm_num),
      field_skip _ _ _ _ _ (by norm_num), field_skip _ _ _ _ _ (by norm_num), field_skip _ _ _ _ _ (by norm_num)]
    exact field_here 2 1 _ _ (by norm_num) rfl
  · rw [field_skip _ _ _ _ _ (by norm_num), field_skip _ _ _ _ _ (by norm_num), field_skip _ _ _ _ _ (by norm_num),
      field_skip _ _ _ _ _ (by norm_num), field_skip _ _ _ _ _ (by norm_num), field_skip _ _ _ _ _ (by norm_num),
      field_skip _ _ _ _ _ (by norm_num)]
    exact field_here 4 rate _ _ (by norm_num; omega) rfl
  · rw [field_skip _ _ _ _ _ (by norm_num), field_skip _ _ _ _ _ (by norm_num), field_skip _ _ _ _ _ (by norm_num),
      field_skip _ _ _ _ _ (by norm_num), field_skip _ _ _ _ _ (by norm_num), field_skip _ _ _ _ _ (by norm_num),
      field_skip _ _ _ _ _ (by norm_num), field_skip _ _ _ _ _ (by norm_num)]
    exact field_here 4 (2 * rate) _ _ (by norm_num; omega) (by push_cast; rfl)
  · rw [field_skip _ _ _ _ _ (by norm_num), field_skip _ _ _ _ _ (by norm_num), field_skip _ _ _ _ _ (by norm_num),
      field_skip _ _ _ _ _ (by norm_num), field_skip _ _ _ _ _ (by norm_num), field_skip _ _ _ _ _ (by norm_num),
      field_skip _ _ _ _ _ (by norm_num), field_skip _ _ _ _ _ (by norm_num), field_skip _ _ _ _ _ (by norm_num)]
    exact field_here 2 2 _ _ (by norm_num) rfl
  · rw [field_skip _ _ _ _ _ (by norm_num), field_skip _ _ _ _ _ (by norm_num), field_skip _ _ _ _ _ (by norm_num),
      field_skip _ _ _ _ _ (by norm_num), field_skip _ _ _ _ _ (by norm_num), field_skip _ _ _ _ _ (by norm_num),
      field_skip _ _ _ _ _ (by norm_num), field_skip _ _ _ _ _ (by norm_num), field_skip _ _ _ _ _ (by norm_num),
      field_skip _ _ _ _ _ (by norm_num)]
    exact field_here 2 16 _ _ (by norm_num) rfl

theorem validate_head (size rate : Nat) (hr : 16 * rate < 2 ^ 31) (tl : List UInt8) :
    validate ((head size rate ++ tl).take 44) = .ok := by
  obtain ⟨h1, h2, h3, h4, h5, h6, h7, h8, h9, h10⟩ := field_head size rate hr tl
  have t : ∀ off n, off + n ≤ 44 → field ((head size rate ++ tl).take 44) off n = field (head size rate ++ tl) off n :=
    fun off n h => field_take _ _ _ _ h
  have hm : ((rate : Int) * 1 * 16).tdiv 8 = 2 * rate := by
    rw [show (rate : Int) * 1 * 16 = (2 * rate) * 8 by ring]
    exact Int.mul_tdiv_cancel _ (by norm_num)
  unfold validate
  simp only [t 0 4 (by omega), t 8 4 (by omega), t 12 4 (by omega), t 16 4 (by omega), t 20 2 (by omega),
    t 22 2 (by omega), t 24 4 (by omega), t 28 4 (by omega), t 32 2 (by omega), t 34 2 (by omega), h1, h2, h3, h4, h5, h6,
    h7, h8, h9, h10, hm]
  rw [if_neg (by simp), if_neg (by simp), if_neg (by simp), if_neg (by simp), if_neg (by simp), if_neg (by simp),
    if_neg (by omega), if_neg (by simp), if_neg (by decide), if_neg (by simp)]

/-- The samples and the sample rate of a wave file are read, whatever chunks come before the data and whatever comes
after it, if no chunk before the data is followed by padding. -/
theorem wave_read_partial (size rate : Nat) (hr : 16 * rate < 2 ^ 31) (extra : List (Nat × List UInt8))
    (hex : ∀ c ∈ extra, c.1 < 2 ^ 31 ∧ c.1 ≠ dataId ∧ c.2.length < 2 ^ 31) (samples : List Int)
    (hs : ∀ x ∈ samples, -32768 ≤ x ∧ x < 32768) (hl : 2 * samples.length < 2 ^ 31) (rest : List UInt8) (fuel : Nat)
    (hfuel : extra.length < fuel) :
    readWave fuel (waveFile size rate extra samples rest) =
      some (.samples (samples.map (fun (x : Int) => (x : ℚ) / 32768)) rate) := by
  have hdl : (samples.map sampleBytes).flatten.length = 2 * samples.length := by
    rw [List.length_flatten, List.map_map]
    have : (List.length ∘ sampleBytes) = fun _ => 2 := by funext x; simp [sampleBytes, le_length]
    rw [this]
    simp [Nat.mul_comm]
  set data := (samples.map sampleBytes).flatten with hdata
  set tl := (extra.map (fun c => chunk c.1 c.2)).flatten ++ (chunk dataId data ++ rest) with htl
  have hfile : waveFile size rate extra samples rest = head size rate ++ tl := rfl
  have htlen : 8 ≤ tl.length := by
    rw [htl]
    simp only [List.length_append, chunk_length]
    omega
  have hsplit : tl.take 8 ++ tl.drop 8 = tl := List.take_append_drop _ _
  have hseek := seek_chunks (head size rate ++ tl) extra hex data rest (head size rate) (by omega) (tl.take 8) (tl.drop 8)
    (by simp; omega) (by rw [hsplit]) hsplit fuel hfuel
  have hlen : (head size rate ++ tl).length = 36 + tl.length := by simp [head_length]
  rw [hfile]
  have hread : readBytes (head size rate ++ tl) 0 44 = some ((head size rate ++ tl).take 44) := by
    unfold readBytes
    rw [if_pos (by omega), List.drop_zero]
  unfold readWave
  rw [hread]
  simp only [validate_head size rate hr tl]
  have f1 : ∀ off n, off + n ≤ 8 → field ((head size rate ++ tl).take 44) (36 + off) n = field (tl.take 8) off n := by
    intro off n h
    rw [field_take _ _ _ _ (by omega), field_take _ _ _ _ h, ← field_drop]
    have := head_length size rate
    rw [← this, List.drop_left]
  rw [f1 0 4 (by omega), f1 4 4 (by omega), show 44 = (head size rate).length + 8 by rw [head_length], hseek]
  simp only
  rw [head_length, field_take _ _ _ _ (by omega), (field_head size rate hr tl).2.2.2.2.2.2.1]
  have hpos : head size rate ++ tl = (head size rate ++ (extra.map (fun c => chunk c.1 c.2)).flatten ++ le 4 dataId ++
      le 4 data.length) ++ (data ++ rest) := by
    rw [htl]; simp [chunk]
  have hp : (head size rate ++ tl).length - rest.length - data.length = (head size rate ++
      (extra.map (fun c => chunk c.1 c.2)).flatten ++ le 4 dataId ++ le 4 data.length).length := by
    rw [hpos]; simp only [List.length_append]; omega
  unfold readData
  rw [if_neg (by omega), Int.toNat_natCast, hp, hpos, readBytes_at]
  simp only
  rw [if_pos (by omega), hdata, decode_samples samples hs]

/-- Two chunks before the data, one of them with an odd number of bytes, and something after it. -/
example : readWave 5 (waveFile 0 16000 [(1, [5, 6]), (2, [7])] [3, -32768, 32767] [9]) =
    some (.samples [3 / 32768, -1, 32767 / 32768] 16000) := by
  rw [wave_read_partial 0 16000 (by norm_num) _ (by decide +kernel) _ (by decide) (by decide) _ 5 (by decide)]
  norm_num

/-! ## Soundness -/

theorem seek_sound (f : List UInt8) (fuel pos : Nat) (id size : Int) (p : Nat) (s : Int)
    (hpos : 8 ≤ pos) (hpf : pos ≤ f.length) (hid : id = field f (pos - 8) 4) (hsz : size = field f (pos - 4) 4)
    (h : seekData f fuel pos id size = some (some (p, s))) :
    8 ≤ p ∧ p ≤ f.length ∧ field f (p - 8) 4 = 0x61746164 ∧ s = field f (p - 4) 4 := by
  induction fuel generalizing pos id size with
  | zero => simp [seekData] at h
  | succ fuel ih =>
    rw [seekData] at h
    split at h
    · rename_i hd
      simp only [Option.some.injEq, Prod.mk.injEq] at h
      obtain ⟨rfl, rfl⟩ := h
      exact ⟨hpos, hpf, by rw [← hid, hd], hsz⟩
    · split at h
      · simp at h
      · cases hr : readBytes f ((pos : Int) + size).toNat 8 with
        | none => rw [hr] at h; simp at h
        | some b =>
          rw [hr] at h
          unfold readBytes at hr
          split at hr
          · rename_i hle
            rw [Option.some.injEq] at hr
            refine ih _ _ _ (by omega) (by omega) ?_ ?_ h
            · rw [← hr, field_take _ _ _ _ (by omega), field_drop, Nat.add_sub_cancel, Nat.add_zero]
            · rw [← hr, field_take _ _ _ _ (by omega), field_drop,
                show ((pos : Int) + size).toNat + 8 - 4 = ((pos : Int) + size).toNat + 4 by omega]
          · simp at hr

/-- Whatever the bytes are: if samples are returned, the file says that it has one channel, no compression and 16 bits,
the rate is the rate it says, and the samples are the bytes after the name `data` and their number. -/
theorem wave_sound (f : List UInt8) (fuel : Nat) (data : List ℚ) (rate : Int)
    (h : readWave fuel f = some (.samples data rate)) :
    field f 0 4 = 0x46464952 ∧ field f 8 4 = 0x45564157 ∧ field f 20 2 = 1 ∧ field f 22 2 = 1 ∧ field f 34 2 = 16 ∧
    rate = field f 24 4 ∧
    ∃ p, 8 ≤ p ∧ p + 2 * data.length ≤ f.length ∧ field f (p - 8) 4 = 0x61746164 ∧
      field f (p - 4) 4 = 2 * data.length ∧
      ∀ i, i < data.length → data[i]? = some (((field f (p + 2 * i) 2 : Int) : ℚ) / 32768) := by
  unfold readWave at h
  cases h0 : readBytes f 0 44 with
  | none => simp [h0] at h
  | some hd =>
    simp only [h0] at h
    have hhd : hd = f.take 44 ∧ 44 ≤ f.length := by
      unfold readBytes at h0
      split at h0
      · rw [Option.some.injEq] at h0
        exact ⟨by rw [← h0]; rfl, by omega⟩
      · simp at h0
    have t : ∀ off n, off + n ≤ 44 → field hd off n = field f off n := by
      intro off n hle
      rw [hhd.1, field_take _ _ _ _ hle]
    have hv : validate hd = .ok := by
      cases hv : validate hd <;> simp [hv] at h ⊢
    simp only [hv] at h
    have hval := hv
    unfold validate at hval
    simp only at hval
    have key : field hd 0 4 = 0x46464952 ∧ field hd 8 4 = 0x45564157 ∧ field hd 20 2 = 1 ∧ field hd 22 2 = 1 ∧
        field hd 34 2 = 16 := by
      repeat' split at hval
      all_goals simp at hval
      simp only [ne_eq, not_not] at *
      refine ⟨?_, ?_, ?_, ?_, ?_⟩ <;> assumption
    rw [t 0 4 (by omega), t 8 4 (by omega), t 20 2 (by omega), t 22 2 (by omega), t 34 2 (by omega)] at key
    refine ⟨key.1, key.2.1, key.2.2.1, key.2.2.2.1, key.2.2.2.2, ?_⟩
    cases hs : seekData f fuel 44 (field hd 36 4) (field hd 40 4) with
    | none => simp [hs] at h
    | some r =>
      cases r with
      | none => simp [hs] at h
      | some r =>
        simp only [hs, Option.some.injEq] at h
        obtain ⟨k1, k2, k3, k4⟩ := seek_sound f fuel 44 _ _ r.1 r.2 (by omega) hhd.2 (t 36 4 (by omega)) (t 40 4 (by omega)) hs
        unfold readData at h
        split at h
        · simp at h
        · rename_i hneg
          cases hb : readBytes f r.1 r.2.toNat with
          | none => simp [hb] at h
          | some b =>
            simp only [hb] at h
            split at h
            · rename_i hev
              simp only [Out.samples.injEq] at h
              obtain ⟨rfl, rfl⟩ := h
              unfold readBytes at hb
              split at hb
              · rename_i hle
                rw [Option.some.injEq] at hb
                have hbl : b.length = r.2.toNat := by rw [← hb]; simp; omega
                obtain ⟨d1, d2⟩ := decode_get b
                refine ⟨t 24 4 (by omega), r.1, k1, by omega, k3, by rw [← k4]; omega, fun i hi => ?_⟩
                rw [d2 i (by omega), ← hb, field_take _ _ _ _ (by omega), field_drop]
              · simp at hb
            · simp at h

/-- With an expected rate, samples are returned for exactly those files that have this rate. -/
theorem wave_rate (f : List UInt8) (fuel : Nat) (expected : Int) (data : List ℚ) (rate : Int) :
    readWaveRate fuel f expected = some (.samples data rate) ↔
      readWave fuel f = some (.samples data rate) ∧ rate = expected := by
  unfold readWaveRate
  split
  · rename_i d r h
    rw [h]
    by_cases hr : r = expected
    · rw [if_pos hr]
      constructor
      · intro e
        refine ⟨e, ?_⟩
        injection e with e
        injection e with e1 e2
        rw [← e2, hr]
      · exact fun e => e.1
    · rw [if_neg hr]
      constructor
      · intro e
        simp at e
      · rintro ⟨e, e'⟩
        injection e with e
        injection e with e1 e2
        exact absurd (e2.trans e') hr
  · rename_i h
    constructor
    · intro e
      exact absurd e (h _ _)
    · rintro ⟨e, _⟩
      exact e

/-! ## What goes wrong -/

/-- The loop does not end only if the file has a negative number where it looks for a size. -/
theorem wave_stops (f : List UInt8) (fuel : Nat) (hfuel : f.length < fuel) (h : readWave fuel f = none) :
    ∃ p, p + 4 ≤ f.length ∧ field f p 4 < 0 := by
  by_contra hno
  push Not at hno
  have key : ∀ (fuel pos : Nat) (id size : Int), 0 ≤ size → f.length < fuel + pos → seekData f fuel pos id size = none →
      fuel = 0 := by
    intro fuel
    induction fuel with
    | zero => intros; rfl
    | succ fuel ih =>
      intro pos id size hsz hlt hn
      exfalso
      rw [seekData] at hn
      split at hn
      · simp at hn
      · split at hn
        · simp at hn
        · cases hr : readBytes f ((pos : Int) + size).toNat 8 with
          | none => rw [hr] at hn; simp at hn
          | some b =>
            rw [hr] at hn
            unfold readBytes at hr
            split at hr
            · rename_i hle
              rw [Option.some.injEq] at hr
              have e : field b 4 4 = field f (((pos : Int) + size).toNat + 4) 4 := by
                rw [← hr, field_take _ _ _ _ (by omega), field_drop]
              have := ih _ _ _ (by rw [e]; exact hno _ (by omega)) (by omega) hn
              subst this
              omega
            · simp at hr
  unfold readWave at h
  cases h0 : readBytes f 0 44 with
  | none => simp [h0] at h
  | some hd =>
    simp only [h0] at h
    unfold readBytes at h0
    split at h0
    · rename_i hle
      rw [Option.some.injEq] at h0
      cases hv : validate hd with
      | bad => simp [hv] at h
      | overflow => simp [hv] at h
      | ok =>
        simp only [hv] at h
        cases hs : seekData f fuel 44 (field hd 36 4) (field hd 40 4) with
        | none =>
          have e : field hd 40 4 = field f 40 4 := by
            rw [← h0, field_take _ _ _ _ (by omega), List.drop_zero]
          have := key _ _ _ _ (by rw [e]; exact hno _ (by omega)) (by omega) hs
          omega
        | some r =>
          cases r with
          | none => simp [hs] at h
          | some r => simp [hs] at h
    · simp at h0

/-- A file of 44 bytes for which the reader loops forever: the size of the first chunk is -8. -/
def loopFile : List UInt8 := head 0 8000 ++ (le 4 1 ++ le 4 (2 ^ 32 - 8))

theorem wave_loop_neg : ∀ fuel, readWave fuel loopFile = none := by
  have key : ∀ fuel, seekData loopFile fuel 44 1 (-8) = none := by
    intro fuel
    induction fuel with
    | zero => rfl
    | succ fuel ih =>
      rw [seekData, if_neg (by decide +kernel), if_neg (by decide +kernel)]
      have : readBytes loopFile ((44 : Nat) + (-8 : Int)).toNat 8 = some (le 4 1 ++ le 4 (2 ^ 32 - 8)) := by decide +kernel
      rw [this]
      have e1 : field (le 4 1 ++ le 4 (2 ^ 32 - 8)) 0 4 = 1 := by decide +kernel
      have e2 : field (le 4 1 ++ le 4 (2 ^ 32 - 8)) 4 4 = -8 := by decide +kernel
      simp only [e1, e2]
      exact ih
  intro fuel
  have h0 : readBytes loopFile 0 44 = some loopFile := by decide +kernel
  have hv : validate loopFile = .ok := by decide +kernel
  have e1 : field loopFile 36 4 = 1 := by decide +kernel
  have e2 : field loopFile 40 4 = -8 := by decide +kernel
  unfold readWave
  rw [h0]
  simp only [hv, e1, e2, key]

/-- An odd number of bytes in the data chunk: one byte is written behind the memory. -/
theorem wave_odd_neg : readWave 1 (head 0 8000 ++ chunk dataId [1, 2, 3]) = some .undefined := by decide +kernel

/-- A chunk with an odd number of bytes and the byte of padding that the format asks for: the data is not found. -/
theorem wave_padding_neg : readWave 5 (head 0 8000 ++ (chunk 1 [7] ++ ([0] ++ chunk dataId [1, 2]))) =
    some .error := by decide +kernel

/-- Whatever the bytes are, memory is only overwritten if the file gives an odd number of bytes for the data, and
nothing overflows unless the rate is large. -/
theorem wave_safe (f : List UInt8) (fuel : Nat) (h : readWave fuel f = some .undefined) :
    (2 ^ 31 ≤ field f 24 4 * field f 34 2 ∨ field f 24 4 * field f 34 2 < -2 ^ 31) ∨
    ∃ p, 8 ≤ p ∧ p ≤ f.length ∧ field f (p - 8) 4 = 0x61746164 ∧ field f (p - 4) 4 % 2 = 1 := by
  unfold readWave at h
  cases h0 : readBytes f 0 44 with
  | none => simp [h0] at h
  | some hd =>
    simp only [h0] at h
    have hhd : hd = f.take 44 ∧ 44 ≤ f.length := by
      unfold readBytes at h0
      split at h0
      · rw [Option.some.injEq] at h0
        exact ⟨by rw [← h0]; rfl, by omega⟩
      · simp at h0
    have t : ∀ off n, off + n ≤ 44 → field hd off n = field f off n := by
      intro off n hle
      rw [hhd.1, field_take _ _ _ _ hle]
    cases hv : validate hd with
    | bad => simp [hv] at h
    | overflow =>
      left
      unfold validate at hv
      simp only at hv
      repeat' split at hv
      all_goals simp at hv
      simp only [ne_eq, not_not] at *
      rename_i k2 _ _ _ _ _ k1
      rw [k1, t 24 4 (by omega), t 34 2 (by omega), mul_one] at k2
      omega
    | ok =>
      right
      simp only [hv] at h
      cases hs : seekData f fuel 44 (field hd 36 4) (field hd 40 4) with
      | none => simp [hs] at h
      | some r =>
        cases r with
        | none => simp [hs] at h
        | some r =>
          simp only [hs, Option.some.injEq] at h
          obtain ⟨k1, k2, k3, k4⟩ := seek_sound f fuel 44 _ _ r.1 r.2 (by omega) hhd.2 (t 36 4 (by omega))
            (t 40 4 (by omega)) hs
          refine ⟨r.1, k1, k2, k3, ?_⟩
          unfold readData at h
          split at h
          · simp at h
          · cases hb : readBytes f r.1 r.2.toNat with
            | none => simp [hb] at h
            | some b =>
              simp only [hb] at h
              split at h
              · simp at h
              · rw [← k4]; omega

end Verif.Wave
