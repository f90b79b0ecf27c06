import Verif.Kaldi.Lemmas

/-! Properties C19, C20 and C21 (uncompressed matrices) of the Kaldi binary encoding. -/

namespace Hyp.Kaldi
open Hyp.Text

/-- a behaviour of `f.peek` that always returns one byte; used in the examples. -/
def pkOne : Peek where
  fn := fun s => s.take 1
  isPrefix := fun s => List.take_prefix 1 s
  nonempty := fun s h => by cases s <;> simp_all

/-- a behaviour of `f.peek` that returns everything. -/
def pkAll : Peek where
  fn := fun s => s
  isPrefix := fun s => List.prefix_refl s
  nonempty := fun s h => h

/-! ## C19 -/

/-- Any non-empty ASCII token without blanks is written, and reading it back - in either mode, whatever the
buffering of `f.peek` - returns the token and leaves the reader exactly after it. -/
theorem C19_token_round_trip (t : Str) (hne : t ≠ []) (hsp : ' ' ∉ t) (hasc : ∀ c ∈ t, c.toNat < 128) :
    ∃ b, writeToken t = some b ∧ b.length = t.length + 1 ∧
      ∀ (pk : Peek) (binary : Bool) (rest : Bytes), readToken pk binary (b ++ rest) = some (t, rest) := by
  have henc : encodeAscii t = some (t.map (fun c => UInt8.ofNat c.toNat)) := by
    unfold encodeAscii; rw [if_pos]; simpa using hasc
  have hw : writeToken t = some (t.map (fun c => UInt8.ofNat c.toNat) ++ [32]) := by
    unfold writeToken; rw [if_neg (by simpa using hsp), henc]; rfl
  exact ⟨_, hw, by simp, fun pk binary rest => readToken_writeToken pk binary hne hw rest⟩

/-- A token with a blank or a non-ASCII character is refused by the writer. -/
theorem C19_bad_token_raises (t : Str) (h : ' ' ∈ t ∨ ∃ c ∈ t, 128 ≤ c.toNat) : writeToken t = none := by
  unfold writeToken
  split
  · rfl
  · rename_i hb
    rcases h with h | ⟨c, hc, h⟩
    · exact absurd h (by simpa using hb)
    · unfold encodeAscii
      rw [if_neg]
      · rfl
      · rw [List.all_eq_true]
        intro hall
        have := hall c hc
        simp only [decide_eq_true_eq] at this
        omega

/-- Every 32-bit signed integer is written in five bytes and read back exactly, whatever follows. -/
theorem C19_int32_round_trip (v : Int) (hlo : -2147483648 ≤ v) (hhi : v < 2147483648) :
    ∃ b, writeInt32 v = some b ∧ b.length = 5 ∧ ∀ rest : Bytes, readInt32 (b ++ rest) = some (v, rest) := by
  obtain ⟨p, hp⟩ := Option.isSome_iff_exists.1 (packI32_isSome.2 ⟨hlo, hhi⟩)
  have hw : writeInt32 v = some (4 :: p) := by simp [writeInt32, hp]
  exact ⟨_, hw, by simp [packI32_length hp], fun rest => readInt32_writeInt32 hw rest⟩

/-- Integers outside the 32-bit range are refused by the writer. -/
theorem C19_int32_out_of_range (v : Int) (h : v < -2147483648 ∨ 2147483648 ≤ v) : writeInt32 v = none := by
  unfold writeInt32 packI32
  rw [if_neg (by omega)]; rfl

/-- The binary marker is recognised exactly when it is there, for any buffering; nothing is consumed otherwise. -/
theorem C19_marker (pk : Peek) (s : Bytes) :
    initInput pk s = (if s.take 2 = [0, 66] then (true, s.drop 2) else (false, s)) := by
  unfold initInput
  rw [peek_eq_take pk (Nat.le_refl 2)]
  rfl

theorem C19_marker_round_trip (pk : Peek) (rest : Bytes) : initInput pk (binMarker ++ rest) = (true, rest) := by
  rw [C19_marker]; simp [binMarker]

example : ∃ b, writeToken ['u', 't', 't', '1'] = some b ∧
    readToken pkOne false (b ++ [0, 66]) = some (['u', 't', 't', '1'], [0, 66]) := by
  refine ⟨[117, 116, 116, 49, 32], by decide, by decide⟩

example : writeInt32 (-2) = some [4, 254, 255, 255, 255] ∧ readInt32 [4, 254, 255, 255, 255, 7] = some (-2, [7]) := by
  decide

/-! ## C20 -/

theorem parseTok_letter {dt : Dt} (hdt : dt = .f32 ∨ dt = .f64) :
    parseTok [dt.letter, 'V'] = some (dt, true) ∧ parseTok [dt.letter, 'M'] = some (dt, false) := by
  rcases hdt with rfl | rfl <;> decide

theorem writeToken_letter (dt : Dt) (v : Char) (hv : v = 'V' ∨ v = 'M') :
    ∃ a, writeToken [dt.letter, v] = some a ∧ a.head? ≠ some 67 := by
  cases dt <;> rcases hv with rfl | rfl <;> exact ⟨_, rfl, by simp [Dt.letter]⟩

theorem Dt.size_pos {dt : Dt} (hdt : dt = .f32 ∨ dt = .f64) : 0 < dt.size := by
  rcases hdt with rfl | rfl <;> decide

/-- reading the body of a matrix: any row range. -/
theorem readBody2_eq {dt : Dt} (hdt : dt = .f32 ∨ dt = .f64) {cols : Nat} {rows : List (List Bytes)}
    (hwf : (Nd.mat dt cols rows).WF) {c : Bytes} (hc : writeInt32 cols = some c) {off nr left : Nat}
    (hrows : off + nr + left = rows.length) (seqMode : Bool) (rest : Bytes) :
    readBody2 dt off nr left seqMode (c ++ (rows.flatten.flatten ++ rest)) =
      some (.mat dt cols ((rows.drop off).take nr),
        if seqMode then rest else ((rows.drop (off + nr)).flatten.flatten ++ rest)) := by
  have hel : ∀ e ∈ rows.flatten, e.length = dt.size := by
    intro e he
    obtain ⟨r, hr, her⟩ := List.mem_flatten.1 he
    exact (hwf r hr).2 e her
  have hrl : ∀ r ∈ rows, r.length = cols := fun r hr => (hwf r hr).1
  -- dropping and taking whole rows in the byte stream
  have hdropRows : ∀ k, k ≤ rows.length →
      (rows.flatten.flatten ++ rest).drop (k * cols * dt.size) = (rows.drop k).flatten.flatten ++ rest := by
    intro k hk
    rw [List.drop_append_of_le_length, flatten_drop hel, flatten_drop hrl]
    rw [flatten_length hel, flatten_length hrl]
    exact Nat.mul_le_mul_right _ (Nat.mul_le_mul_right _ hk)
  have hel' : ∀ e ∈ (rows.drop off).flatten, e.length = dt.size := by
    intro e he
    obtain ⟨r, hr, her⟩ := List.mem_flatten.1 he
    exact (hwf r (List.mem_of_mem_drop hr)).2 e her
  have hrl' : ∀ r ∈ rows.drop off, r.length = cols := fun r hr => hrl r (List.mem_of_mem_drop hr)
  have htakeRows : ((rows.drop off).flatten.flatten ++ rest).take (nr * cols * dt.size) =
      ((rows.drop off).take nr).flatten.flatten := by
    rw [List.take_append_of_le_length, flatten_take hel', flatten_take hrl']
    rw [flatten_length hel', flatten_length hrl', List.length_drop]
    exact Nat.mul_le_mul_right _ (Nat.mul_le_mul_right _ (by omega))
  have hd2 : ((rows.drop off).flatten.flatten ++ rest).drop (nr * cols * dt.size) =
      (rows.drop (off + nr)).flatten.flatten ++ rest := by
    rw [← hdropRows off (by omega), List.drop_drop, ← Nat.add_mul, ← Nat.add_mul, hdropRows _ (by omega)]
  have hd3 : ((rows.drop (off + nr)).flatten.flatten ++ rest).drop (left * cols * dt.size) = rest := by
    rw [← hdropRows (off + nr) (by omega), List.drop_drop, ← Nat.add_mul, ← Nat.add_mul, hdropRows _ (by omega),
      List.drop_of_length_le (by omega)]
    rfl
  have hel2 : ∀ e ∈ ((rows.drop off).take nr).flatten, e.length = dt.size := by
    intro e he
    obtain ⟨r, hr, her⟩ := List.mem_flatten.1 he
    exact (hwf r (List.mem_of_mem_drop (List.mem_of_mem_take hr))).2 e her
  have hrl2 : ∀ r ∈ (rows.drop off).take nr, r.length = cols :=
    fun r hr => hrl' r (List.mem_of_mem_take hr)
  unfold readBody2
  rw [readInt32_writeInt32 hc]
  simp only [Option.bind_eq_bind, Option.bind_some, natOf_nat]
  rw [hdropRows off (by omega), htakeRows, hd2, hd3, frombuffer_flatten (Dt.size_pos hdt) hel2]
  simp only [Option.bind_some]
  rw [reshape_flatten hrl2 (by rw [List.length_take, List.length_drop]; omega)]
  rfl

theorem rowPlan_eq_some {total off n nr left : Nat} :
    rowPlan total off n = some (nr, left) ↔
      off + nr + left = total ∧ (n = 0 → left = 0) ∧ (n ≠ 0 → nr = n) := by
  unfold rowPlan
  split
  · split
    · simp only [Option.some.injEq, Prod.mk.injEq]; omega
    · split
      · simp only [Option.some.injEq, Prod.mk.injEq]; omega
      · simp only [reduceCtorEq, false_iff]; omega
  · simp only [reduceCtorEq, false_iff]; omega

/-- number of rows returned by a read of rows `off..off+n` (`n = 0`: to the end). -/
def rowsRead (total off n : Nat) : Nat := if n = 0 then total - off else n

theorem rowPlan_ok {total off n : Nat} (ho : off ≤ total) (hn : off + n ≤ total) :
    rowPlan total off n = some (rowsRead total off n, total - off - rowsRead total off n) := by
  rw [rowPlan_eq_some]; unfold rowsRead; split <;> omega

theorem rowPlan_bad {total off n : Nat} (h : total < off ∨ total < off + n) : rowPlan total off n = none := by
  unfold rowPlan
  split
  · rw [if_neg (by omega), if_neg (by omega)]
  · rfl

/-- what `write` produces for a matrix, in parts. -/
theorem writeMat_mat {dt : Dt} {cols : Nat} {rows : List (List Bytes)} {out : Bytes}
    (h : writeMat (.mat dt cols rows) = some out) :
    ∃ a r c, writeToken [dt.letter, 'M'] = some a ∧ writeInt32 rows.length = some r ∧
      writeInt32 cols = some c ∧ out = a ++ (r ++ (c ++ rows.flatten.flatten)) := by
  unfold writeMat at h
  simp only [Option.bind_eq_bind, Option.bind_eq_some_iff] at h
  obtain ⟨a, ha, r, hr, c, hc, h⟩ := h
  simp only [Option.pure_def, Option.some.injEq] at h
  exact ⟨a, r, c, ha, hr, hc, by simp [← h, Nd.toBytes]⟩

theorem writeMat_vec {dt : Dt} {els : List Bytes} {out : Bytes} (h : writeMat (.vec dt els) = some out) :
    ∃ a c, writeToken [dt.letter, 'V'] = some a ∧ writeInt32 els.length = some c ∧
      out = a ++ (c ++ els.flatten) := by
  unfold writeMat at h
  simp only [Option.bind_eq_bind, Option.bind_eq_some_iff] at h
  obtain ⟨a, ha, c, hc, h⟩ := h
  simp only [Option.pure_def, Option.some.injEq] at h
  exact ⟨a, c, ha, hc, by simp [← h, Nd.toBytes]⟩

/-- the element type of the array. -/
def Nd.dt : Nd → Dt
  | .vec dt _ => dt
  | .mat dt _ _ => dt

/-- a written array never starts with the letter of a compressed matrix. -/
theorem peek_writeMat (pk : Peek) {m : Nd} {out : Bytes} (h : writeMat m = some out) (rest : Bytes) :
    peek pk 1 (out ++ rest) ≠ [67] := by
  rw [peek_eq_take pk (by omega)]
  have key : ∀ dt v, (v = 'V' ∨ v = 'M') → ∀ a, writeToken [dt, v] = some a → (∃ d : Dt, dt = d.letter) →
      ∀ t : Bytes, (a ++ t).take 1 ≠ [67] := by
    rintro _ v hv a ha ⟨d, rfl⟩ t
    obtain ⟨a', ha', h67⟩ := writeToken_letter d v hv
    rw [ha'] at ha
    obtain rfl := Option.some.inj ha
    have hne : a' ≠ [] := by
      obtain ⟨e, he, _, _⟩ := writeToken_eq ha'
      rw [he]; simp
    cases a' with
    | nil => exact absurd rfl hne
    | cons x xs => simp at h67 ⊢; exact h67
  cases m with
  | vec dt els =>
    obtain ⟨a, c, ha, _, rfl⟩ := writeMat_vec h
    rw [List.append_assoc]
    exact key _ _ (Or.inl rfl) a ha ⟨dt, rfl⟩ _
  | mat dt cols rows =>
    obtain ⟨a, r, c, ha, _, _, rfl⟩ := writeMat_mat h
    rw [List.append_assoc]
    exact key _ _ (Or.inr rfl) a ha ⟨dt, rfl⟩ _

/-- reading a stored matrix with any row range. -/
theorem readPlain_mat (pk : Peek) {dt : Dt} (hdt : dt = .f32 ∨ dt = .f64) {cols : Nat} {rows : List (List Bytes)}
    (hwf : (Nd.mat dt cols rows).WF) {out : Bytes} (h : writeMat (.mat dt cols rows) = some out)
    (off n : Nat) (seqMode : Bool) (rest : Bytes) :
    readPlain pk off n seqMode (out ++ rest) =
      if off + n ≤ rows.length then
        some (.mat dt cols ((rows.drop off).take (rowsRead rows.length off n)),
          if seqMode then rest
          else ((rows.drop (off + rowsRead rows.length off n)).flatten.flatten ++ rest))
      else none := by
  obtain ⟨a, r, c, ha, hr, hc, rfl⟩ := writeMat_mat h
  unfold readPlain
  rw [show a ++ (r ++ (c ++ rows.flatten.flatten)) ++ rest = a ++ (r ++ (c ++ (rows.flatten.flatten ++ rest))) by simp]
  rw [readToken_writeToken pk true (by simp) ha]
  simp only [Option.bind_eq_bind, Option.bind_some, (parseTok_letter hdt).2]
  rw [readInt32_writeInt32 hr]
  simp only [Option.bind_some, natOf_nat]
  split
  · rename_i hle
    rw [rowPlan_ok (by omega) hle]
    simp only [Option.bind_some]
    rw [readBody2_eq hdt hwf hc]
    unfold rowsRead; split <;> omega
  · rename_i hle
    rw [rowPlan_bad (by omega)]; rfl

theorem readPlain_vec (pk : Peek) {dt : Dt} (hdt : dt = .f32 ∨ dt = .f64) {els : List Bytes}
    (hwf : (Nd.vec dt els).WF) {out : Bytes} (h : writeMat (.vec dt els) = some out)
    (n : Nat) (seqMode : Bool) (rest : Bytes) :
    readPlain pk 0 n seqMode (out ++ rest) = some (.vec dt els, rest) := by
  obtain ⟨a, c, ha, hc, rfl⟩ := writeMat_vec h
  unfold readPlain
  rw [show a ++ (c ++ els.flatten) ++ rest = a ++ (c ++ (els.flatten ++ rest)) by simp]
  rw [readToken_writeToken pk true (by simp) ha]
  simp only [Option.bind_eq_bind, Option.bind_some, (parseTok_letter hdt).1]
  unfold readBody1
  rw [readInt32_writeInt32 hc]
  simp only [Option.bind_eq_bind, Option.bind_some, natOf_nat]
  have hl := flatten_length hwf
  simp only [Nat.zero_mul, List.drop_zero]
  rw [← hl, List.take_left' rfl, List.drop_left' rfl, frombuffer_flatten (Dt.size_pos hdt) hwf]
  rfl

/-- The sizes that fit the file format: every dimension below 2^31. -/
def Nd.SizesOk (m : Nd) : Prop := ∀ d ∈ m.shape, d < 2147483648

/-- A float array whose dimensions fit in an int32 is written; reading it back, for any buffering, mode and
following bytes, returns the same array (type, shape, every element's bytes) and stops exactly at its end; and
`read_shape` returns its shape, stopping at its end in sequential mode. -/
theorem C20_matrix_round_trip (D : Decoder) (m : Nd) (hwf : m.WF) (hdt : m.dt = .f32 ∨ m.dt = .f64) (hsz : m.SizesOk) :
    ∃ out, writeMat m = some out ∧
      ∀ (pk : Peek) (seqMode : Bool) (rest : Bytes),
        readMat pk D 0 0 seqMode (out ++ rest) = some (m, rest) ∧
        readShape pk true (out ++ rest) = some (m.shape, rest) ∧
        (readShape pk false (out ++ rest)).map (·.1) = some m.shape := by
  have hex : ∃ out, writeMat m = some out := by
    cases m with
    | vec dt els =>
      obtain ⟨a, ha, _⟩ := writeToken_letter dt 'V' (Or.inl rfl)
      obtain ⟨c, hc⟩ := writeInt32_nat (hsz els.length (by simp [Nd.shape]))
      exact ⟨_, by unfold writeMat; simp only [Option.bind_eq_bind, ha, hc, Option.bind_some]; rfl⟩
    | mat dt cols rows =>
      obtain ⟨a, ha, _⟩ := writeToken_letter dt 'M' (Or.inr rfl)
      obtain ⟨r, hr⟩ := writeInt32_nat (hsz rows.length (by simp [Nd.shape]))
      obtain ⟨c, hc⟩ := writeInt32_nat (hsz cols (by simp [Nd.shape]))
      exact ⟨_, by unfold writeMat; simp only [Option.bind_eq_bind, ha, hr, hc, Option.bind_some]; rfl⟩
  obtain ⟨out, hout⟩ := hex
  refine ⟨out, hout, fun pk seqMode rest => ?_⟩
  have hp := peek_writeMat pk hout rest
  unfold readMat readShape
  rw [if_neg hp, if_neg hp, if_neg hp]
  cases m with
  | vec dt els =>
    have hdt : dt = .f32 ∨ dt = .f64 := hdt
    refine ⟨readPlain_vec pk hdt hwf hout 0 seqMode rest, ?_⟩
    obtain ⟨a, c, ha, hc, rfl⟩ := writeMat_vec hout
    have hl := flatten_length hwf
    unfold shapePlain
    rw [show a ++ (c ++ els.flatten) ++ rest = a ++ (c ++ (els.flatten ++ rest)) by simp]
    rw [readToken_writeToken pk true (by simp) ha]
    simp only [Option.bind_eq_bind, Option.bind_some, (parseTok_letter hdt).1]
    rw [readInt32_writeInt32 hc]
    simp only [Option.bind_some, natOf_nat, ← hl, List.drop_left' rfl]
    exact ⟨rfl, rfl⟩
  | mat dt cols rows =>
    have hdt : dt = .f32 ∨ dt = .f64 := hdt
    constructor
    · rw [readPlain_mat pk hdt hwf hout 0 0 seqMode rest, if_pos (by omega)]
      simp [rowsRead]
    · obtain ⟨a, r, c, ha, hr, hc, rfl⟩ := writeMat_mat hout
      have hel : ∀ e ∈ rows.flatten, e.length = dt.size := by
        intro e he
        obtain ⟨r, hr, her⟩ := List.mem_flatten.1 he
        exact (hwf r hr).2 e her
      have hl : rows.flatten.flatten.length = rows.length * cols * dt.size := by
        rw [flatten_length hel, flatten_length (fun r hr => (hwf r hr).1)]
      unfold shapePlain
      rw [show a ++ (r ++ (c ++ rows.flatten.flatten)) ++ rest = a ++ (r ++ (c ++ (rows.flatten.flatten ++ rest))) by simp]
      rw [readToken_writeToken pk true (by simp) ha]
      simp only [Option.bind_eq_bind, Option.bind_some, (parseTok_letter hdt).2]
      rw [readInt32_writeInt32 hr]
      simp only [Option.bind_some, natOf_nat]
      rw [readInt32_writeInt32 hc]
      simp only [Option.bind_some, natOf_nat, ← hl, List.drop_left' rfl]
      exact ⟨rfl, rfl⟩

/-- Arrays of other element types (e.g. int16) are written with the float64 letter, so they do not come back:
here two 2-byte numbers cannot be read. -/
theorem C20_other_types_do_not_round_trip :
    ∃ m : Nd, m.WF ∧ m.SizesOk ∧ ∃ out, writeMat m = some out ∧ ∀ D, readMat pkAll D 0 0 true out = none := by
  refine ⟨.vec (.other 2) [[1, 0], [2, 0]], by unfold Nd.WF; decide, by unfold Nd.SizesOk; decide, _, rfl, fun D => ?_⟩
  rfl

example : (Nd.mat .f32 2 [[[0, 0, 128, 63], [0, 0, 0, 64]], [[0, 0, 64, 64], [0, 0, 128, 64]], [[1, 2, 3, 4], [5, 6, 7, 8]]]).WF ∧
    (Nd.mat .f32 2 [[[0, 0, 128, 63], [0, 0, 0, 64]], [[0, 0, 64, 64], [0, 0, 128, 64]], [[1, 2, 3, 4], [5, 6, 7, 8]]]).SizesOk := by
  constructor
  · unfold Nd.WF; decide
  · unfold Nd.SizesOk; decide

/-! ## C21 (uncompressed) -/

/-- Reading rows `off..off+n` (`n = 0`: from `off` to the end) of a stored matrix gives exactly those rows; in
sequential mode the reader always stops at the end of the matrix. A range that does not fit raises. -/
theorem C21_row_range (D : Decoder) (dt : Dt) (hdt : dt = .f32 ∨ dt = .f64) (cols : Nat) (rows : List (List Bytes))
    (hwf : (Nd.mat dt cols rows).WF) (out : Bytes) (h : writeMat (.mat dt cols rows) = some out)
    (pk : Peek) (off n : Nat) (rest : Bytes) :
    (off + n ≤ rows.length →
      readMat pk D off n true (out ++ rest) =
        some (.mat dt cols (if n = 0 then rows.drop off else (rows.drop off).take n), rest) ∧
      (readMat pk D off n false (out ++ rest)).map (·.1) =
        some (.mat dt cols (if n = 0 then rows.drop off else (rows.drop off).take n))) ∧
    (rows.length < off + n → ∀ seqMode, readMat pk D off n seqMode (out ++ rest) = none) := by
  have hp := peek_writeMat pk h rest
  unfold readMat
  rw [if_neg hp]
  have hrows : (rows.drop off).take (rowsRead rows.length off n) =
      if n = 0 then rows.drop off else (rows.drop off).take n := by
    unfold rowsRead
    split
    · exact List.take_of_length_le (by rw [List.length_drop])
    · rfl
  refine ⟨fun hle => ⟨?_, ?_⟩, fun hlt seqMode => ?_⟩
  · rw [readPlain_mat pk hdt hwf h, if_pos hle, hrows]; rfl
  · rw [if_neg hp, readPlain_mat pk hdt hwf h, if_pos hle, hrows]; rfl
  · rw [if_neg hp, readPlain_mat pk hdt hwf h, if_neg (by omega)]

/-- A vector has no row range: asking for an offset makes the reader skip whole vectors and return bytes of
what follows in the file. -/
theorem C21_vector_offset_misreads :
    ∃ (out other : Bytes), writeMat (.vec .f32 [[1, 1, 1, 1]]) = some out ∧
      ∀ D, readMat pkAll D 1 0 true (out ++ [9, 9, 9, 9]) = some (.vec .f32 [[9, 9, 9, 9]], other) :=
  ⟨_, [], rfl, fun _ => rfl⟩

end Hyp.Kaldi
