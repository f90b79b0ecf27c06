import Verif.Kaldi.CmLemmas

/-! Properties C25 and C21 (compressed matrices). -/

namespace Hyp.Kaldi
open Hyp.Text

/-! ### specification -/

/-- a compressed matrix as a user sees it: format 1, 2 or 3, two float32 numbers, a matrix of codes (1 byte;
2 bytes in format 2) with `cols` columns, and in format 1 four 2-byte percentiles per column. -/
structure CmAttrs.WF (a : CmAttrs) : Prop where
  fmt : a.fmt = 1 ∨ a.fmt = 2 ∨ a.fmt = 3
  mn : a.mn.length = 4
  rg : a.rg.length = 4
  rows : a.codes.length < 2147483648
  cols : a.cols < 2147483648
  rowLen : ∀ r ∈ a.codes, r.length = a.cols
  code : ∀ r ∈ a.codes, ∀ e ∈ r, e.length = if a.fmt = 2 then 2 else 1
  perc : if a.fmt = 1 then ∃ p, a.perc = some p ∧ p.length = 4 * a.cols ∧ ∀ x ∈ p, x.length = 2 else a.perc = none

/-- rows `off..` (`n = 0`: to the end; else `n` rows) of a compressed matrix. -/
def CmAttrs.slice (a : CmAttrs) (off n : Nat) : CmAttrs :=
  { a with codes := if n = 0 then a.codes.drop off else (a.codes.drop off).take n }

/-- the percentile header of each column: 4 numbers of 2 bytes. -/
def CmAttrs.colHeads (a : CmAttrs) : List Bytes := chunks 8 a.cols ((a.perc.getD []).flatten)

/-- decoded row: every code decoded on its own, in format 1 with the header of its column. -/
def CmAttrs.decodeRow (D : Decoder) (a : CmAttrs) (row : List Bytes) : List Bytes :=
  if a.fmt = 1 then List.zipWith (fun h b => D.chr a.mn a.rg h b) a.colHeads row
  else if a.fmt = 2 then row.map (D.u16 a.mn a.rg)
  else row.map (D.u8 a.mn a.rg)

/-! ### proofs -/

/-- the bytes after the fixed header. -/
def payload (a : CmAttrs) : Bytes :=
  if a.fmt = 1 then (a.perc.getD []).flatten ++ ((transposeL a.cols a.codes).map List.flatten).flatten
  else a.codes.flatten.flatten

theorem map_flatten_flatten {α : Type} (l : List (List (List α))) : (l.map List.flatten).flatten = l.flatten.flatten := by
  induction l with
  | nil => rfl
  | cons a l ih => simp [ih]

theorem cmBuild_eq {a : CmAttrs} (hwf : a.WF) :
    ∃ h, packHead ⟨a.fmt, a.mn, a.rg, a.codes.length, a.cols⟩ = some h ∧ cmBuild a = some (h ++ payload a) := by
  obtain ⟨h, hh⟩ := packHead_some (h := ⟨a.fmt, a.mn, a.rg, a.codes.length, a.cols⟩) hwf.fmt hwf.rows hwf.cols
  refine ⟨h, hh, ?_⟩
  unfold cmBuild payload
  simp only [Option.bind_eq_bind, hh, Option.bind_some]
  by_cases h1 : a.fmt = 1
  · have hp := hwf.perc
    rw [if_pos h1] at hp
    obtain ⟨p, hp, _⟩ := hp
    simp only [h1, if_true, hp, Option.bind_some, Option.getD_some, map_flatten_flatten, List.append_assoc]
    rfl
  · simp only [h1, if_false]; rfl

theorem cmW_eq {a : CmAttrs} (hwf : a.WF) : ∀ r ∈ a.codes, ∀ e ∈ r, e.length = cmW a.fmt := hwf.code

theorem cmW_one {fmt : Int} (h : fmt = 1) : cmW fmt = 1 := by rw [h]; rfl

theorem cmW_pos (fmt : Int) : 0 < cmW fmt := by unfold cmW; split <;> omega

theorem perc_flatten_length {a : CmAttrs} (hwf : a.WF) (h1 : a.fmt = 1) :
    ((a.perc.getD []).flatten).length = a.cols * 8 := by
  have hp := hwf.perc
  rw [if_pos h1] at hp
  obtain ⟨p, hp, hl, hx⟩ := hp
  rw [hp, Option.getD_some, flatten_length hx, hl]; omega

theorem col_bytes_length {a : CmAttrs} (hwf : a.WF) (h1 : a.fmt = 1) :
    ∀ c ∈ (transposeL a.cols a.codes).map List.flatten, c.length = a.codes.length := by
  intro c hc
  obtain ⟨x, hx, rfl⟩ := List.mem_map.1 hc
  have hl : ∀ e ∈ x, e.length = 1 := by
    have := mem_transposeL_mem (n := a.cols) (P := fun e : Bytes => e.length = 1)
      (fun r hr e he => by have := hwf.code r hr e he; rw [h1] at this; simpa using this) x hx
    exact this
  rw [flatten_length hl, mem_transposeL hwf.rowLen x hx]; omega

theorem payload_length {a : CmAttrs} (hwf : a.WF) :
    (payload a).length = cmColHead a.fmt a.cols + a.cols * (cmW a.fmt * a.codes.length) := by
  unfold payload cmColHead
  split
  · rename_i h1
    rw [List.length_append, perc_flatten_length hwf h1, flatten_length (col_bytes_length hwf h1), List.length_map,
      transposeL_length, cmW_one h1, Nat.one_mul]
  · have hel : ∀ e ∈ a.codes.flatten, e.length = cmW a.fmt := by
      intro e he
      obtain ⟨r, hr, her⟩ := List.mem_flatten.1 he
      exact cmW_eq hwf r hr e her
    rw [flatten_length hel, flatten_length hwf.rowLen]
    rw [Nat.zero_add, Nat.mul_assoc, Nat.mul_comm a.codes.length, Nat.mul_assoc]

/-- reading any row range of a stored payload gives the payload of these rows and stops at its end. -/
theorem cmBody_payload {a : CmAttrs} (hwf : a.WF) {off nr left : Nat} (hsum : off + nr + left = a.codes.length)
    (rest : Bytes) :
    cmBody a.fmt a.cols (cmW a.fmt * off) (cmW a.fmt * nr) (cmW a.fmt * left) (payload a ++ rest) =
      (payload { a with codes := (a.codes.drop off).take nr }, rest) := by
  have hw := cmW_pos a.fmt
  unfold cmBody
  split
  · rename_i h0
    have ho : off = 0 := by
      rcases Nat.mul_eq_zero.1 h0.1 with h | h <;> omega
    have hl : left = 0 := by
      rcases Nat.mul_eq_zero.1 h0.2 with h | h <;> omega
    have hnr : nr = a.codes.length := by omega
    rw [hnr, ← payload_length hwf, List.take_left' rfl, List.drop_left' rfl, ho]
    simp
  · split
    · rename_i h0 h1
      have hp := perc_flatten_length hwf h1
      have hcl : cmColHead a.fmt a.cols = a.cols * 8 := by simp [cmColHead, h1]
      have hpay : payload a = (a.perc.getD []).flatten ++ ((transposeL a.cols a.codes).map List.flatten).flatten := by
        simp [payload, h1]
      have hpay2 : payload { a with codes := (a.codes.drop off).take nr } =
          (a.perc.getD []).flatten ++
            ((transposeL a.cols ((a.codes.drop off).take nr)).map List.flatten).flatten := by
        simp [payload, h1]
      have hlen : ((transposeL a.cols a.codes).map List.flatten).length = a.cols := by simp [transposeL]
      rw [hcl, hpay, hpay2, ← hp, List.append_assoc, List.take_left' rfl, List.drop_left' rfl]
      have hrc := readCols_eq (off := off) (len := nr) (left := left) hsum rest (col_bytes_length hwf h1)
      rw [hlen] at hrc
      simp only [cmW_one h1, Nat.one_mul]
      rw [hrc, transposeL_slice hwf.rowLen]
      simp only [List.map_map, Prod.mk.injEq, and_true, List.append_cancel_left_eq]
      congr 1
      apply List.map_congr_left
      intro x hx
      have hl : ∀ e ∈ x, e.length = 1 :=
        mem_transposeL_mem (n := a.cols) (P := fun e : Bytes => e.length = 1)
          (fun r hr e he => by have := hwf.code r hr e he; rw [h1] at this; simpa using this) x hx
      simp only [Function.comp]
      have h1' := flatten_drop hl off
      rw [Nat.mul_one] at h1'
      have h2' := flatten_take (l := x.drop off) (fun e he => hl e (List.mem_of_mem_drop he)) nr
      rw [Nat.mul_one] at h2'
      rw [h1', h2']
    · rename_i h0 h1
      have hel : ∀ e ∈ a.codes.flatten, e.length = cmW a.fmt := by
        intro e he
        obtain ⟨r, hr, her⟩ := List.mem_flatten.1 he
        exact cmW_eq hwf r hr e her
      have hpay : payload a = a.codes.flatten.flatten := by simp [payload, h1]
      have hpay2 : payload { a with codes := (a.codes.drop off).take nr } = ((a.codes.drop off).take nr).flatten.flatten := by
        simp [payload, h1]
      have hdrop : ∀ k, k ≤ a.codes.length →
          (a.codes.flatten.flatten ++ rest).drop (cmW a.fmt * k * a.cols) = (a.codes.drop k).flatten.flatten ++ rest := by
        intro k hk
        have e : cmW a.fmt * k * a.cols = k * a.cols * cmW a.fmt := by
          rw [Nat.mul_comm (cmW a.fmt) k, Nat.mul_assoc, Nat.mul_assoc, Nat.mul_comm a.cols]
        rw [e, List.drop_append_of_le_length, flatten_drop hel, flatten_drop hwf.rowLen]
        rw [flatten_length hel, flatten_length hwf.rowLen]
        exact Nat.mul_le_mul_right _ (Nat.mul_le_mul_right _ hk)
      have hel' : ∀ e ∈ (a.codes.drop off).flatten, e.length = cmW a.fmt := by
        intro e he
        obtain ⟨r, hr, her⟩ := List.mem_flatten.1 he
        exact cmW_eq hwf r (List.mem_of_mem_drop hr) e her
      have hrl' : ∀ r ∈ a.codes.drop off, r.length = a.cols := fun r hr => hwf.rowLen r (List.mem_of_mem_drop hr)
      simp only
      rw [hpay, hpay2, hdrop off (by omega)]
      congr 1
      · have e : cmW a.fmt * nr * a.cols = nr * a.cols * cmW a.fmt := by
          rw [Nat.mul_comm (cmW a.fmt) nr, Nat.mul_assoc, Nat.mul_assoc, Nat.mul_comm a.cols]
        rw [e, List.take_append_of_le_length, flatten_take hel', flatten_take hrl']
        rw [flatten_length hel', flatten_length hrl', List.length_drop]
        exact Nat.mul_le_mul_right _ (Nat.mul_le_mul_right _ (by omega))
      · rw [← hdrop off (by omega), List.drop_drop, List.drop_drop, ← Nat.add_mul, ← Nat.mul_add, ← Nat.add_mul,
          ← Nat.mul_add, hdrop _ (by omega), List.drop_of_length_le (by omega)]
        rfl

theorem WF.slice {a : CmAttrs} (hwf : a.WF) (off nr : Nat) :
    CmAttrs.WF { a with codes := (a.codes.drop off).take nr } := by
  have hm : ∀ r ∈ (a.codes.drop off).take nr, r ∈ a.codes :=
    fun r hr => List.mem_of_mem_drop (List.mem_of_mem_take hr)
  refine ⟨hwf.fmt, hwf.mn, hwf.rg, ?_, hwf.cols, fun r hr => hwf.rowLen r (hm r hr), fun r hr => hwf.code r (hm r hr), hwf.perc⟩
  have := hwf.rows
  simp only [List.length_take, List.length_drop]; omega

theorem cmToken_some {fmt : Int} (h : fmt = 1 ∨ fmt = 2 ∨ fmt = 3) :
    ∃ t b, cmToken fmt = some b ∧ writeToken t = some b ∧ t ≠ [] ∧ cmFormat t = some fmt ∧ b.take 1 = [67] := by
  rcases h with rfl | rfl | rfl
  · exact ⟨['C', 'M'], _, rfl, rfl, by simp, rfl, rfl⟩
  · exact ⟨['C', 'M', '2'], _, rfl, rfl, by simp, rfl, rfl⟩
  · exact ⟨['C', 'M', '3'], _, rfl, rfl, by simp, rfl, rfl⟩

/-- reading any row range of what `write` wrote. -/
theorem cmRead_write {a : CmAttrs} (hwf : a.WF) {d : Bytes} (hd : cmBuild a = some d) :
    ∃ out, cmWrite (some d) = some out ∧ out.take 1 = [67] ∧ ∀ (pk : Peek) (off n : Nat) (rest : Bytes),
      cmRead pk off n (out ++ rest) =
        if off + n ≤ a.codes.length then (cmBuild (a.slice off n)).map (fun b => (b, rest)) else none := by
  obtain ⟨h, hh, hb⟩ := cmBuild_eq hwf
  rw [hd] at hb
  obtain rfl := Option.some.inj hb
  obtain ⟨hu, hl⟩ := unpackHead_pack hwf.mn hwf.rg hh
  obtain ⟨t, tb, ht, htw, htn, htf, h67⟩ := cmToken_some hwf.fmt
  obtain ⟨hf4, hsplit⟩ := packHead_take hh
  have hl16 : (h.drop 4).length = 16 := by simp [hl]
  have e20 : (h ++ payload a).take 20 = h := List.take_left' hl
  have e4 : (h ++ payload a).drop 4 = h.drop 4 ++ payload a := List.drop_append_of_le_length (by omega)
  refine ⟨tb ++ (h.drop 4 ++ payload a), ?_, ?_, ?_⟩
  · unfold cmWrite
    simp only [Option.bind_eq_bind, e20, hu, Option.bind_some, ht, e4]
    rfl
  · cases tb with
    | nil => simp at h67
    | cons x xs => simpa using h67
  · intro pk off n rest
    unfold cmRead
    rw [List.append_assoc, readToken_writeToken pk true htn htw]
    have e16 : (h.drop 4 ++ payload a ++ rest).take 16 = h.drop 4 := by
      rw [List.append_assoc, ← hl16, List.take_left' rfl]
    have e16' : (h.drop 4 ++ payload a ++ rest).drop 16 = payload a ++ rest := by
      rw [List.append_assoc, ← hl16, List.drop_left' rfl]
    simp only [Option.bind_eq_bind, Option.bind_some, htf]
    have hf4' : packI32 a.fmt = some (h.take 4) := hf4
    rw [hf4']
    simp only [Option.bind_some, e16, e16']
    rw [← hsplit, hu]
    simp only [Option.bind_some]
    split
    · rename_i hle
      rw [rowPlan_ok (by omega) hle]
      simp only [Option.bind_some]
      have hsum : off + rowsRead a.codes.length off n + (a.codes.length - off - rowsRead a.codes.length off n) =
          a.codes.length := by unfold rowsRead; split <;> omega
      rw [cmBody_payload hwf hsum]
      have hslice : a.slice off n = { a with codes := (a.codes.drop off).take (rowsRead a.codes.length off n) } := by
        unfold CmAttrs.slice rowsRead
        split
        · rw [List.take_of_length_le]; simp
        · rfl
      obtain ⟨h', hh', hb'⟩ := cmBuild_eq (WF.slice hwf off (rowsRead a.codes.length off n))
      rw [hslice, hb']
      have hrl : ((a.codes.drop off).take (rowsRead a.codes.length off n)).length = rowsRead a.codes.length off n := by
        rw [List.length_take, List.length_drop]; unfold rowsRead; split <;> omega
      unfold cmNewHead
      split
      · simp only [hrl] at hh'
        rw [hh']
        rfl
      · rename_i hno
        have ho : off = 0 := by omega
        have hn : n = 0 := by omega
        have hrr : rowsRead a.codes.length off n = a.codes.length := by rw [ho, hn]; simp [rowsRead]
        rw [hrl, hrr] at hh'
        rw [hh] at hh'
        obtain rfl := Option.some.inj hh'
        rfl
    · rw [rowPlan_bad (by omega)]; rfl

/-! ## C25 -/

/-- Building a compressed matrix from coded values and attributes and asking for them again gives them back. -/
theorem C25_attrs_round_trip (a : CmAttrs) (hwf : a.WF) : ∃ d, cmBuild a = some d ∧ cmGetAttrs d = some a := by
  obtain ⟨h, hh, hb⟩ := cmBuild_eq hwf
  obtain ⟨hu, hl⟩ := unpackHead_pack hwf.mn hwf.rg hh
  refine ⟨_, hb, ?_⟩
  have e20 : (h ++ payload a).take 20 = h := List.take_left' hl
  have e20' : (h ++ payload a).drop 20 = payload a := List.drop_left' hl
  have hel : ∀ e ∈ a.codes.flatten, e.length = cmW a.fmt := by
    intro e he
    obtain ⟨r, hr, her⟩ := List.mem_flatten.1 he
    exact cmW_eq hwf r hr e her
  unfold cmGetAttrs
  simp only [Option.bind_eq_bind, e20, hu, Option.bind_some, e20']
  by_cases h1 : a.fmt = 1
  · simp only [h1, if_true]
    have hp := hwf.perc
    rw [if_pos h1] at hp
    obtain ⟨p, hp, hpl, hpx⟩ := hp
    have hpf := perc_flatten_length hwf h1
    have hpay : payload a = p.flatten ++ (transposeL a.cols a.codes).flatten.flatten := by
      simp [payload, h1, hp, map_flatten_flatten]
    rw [hp, Option.getD_some] at hpf
    have e1 : ((h ++ payload a).take (20 + a.cols * 8)).drop 20 = p.flatten := by
      rw [List.drop_take, e20', hpay]
      have : 20 + a.cols * 8 - 20 = p.flatten.length := by omega
      rw [this, List.take_left' rfl]
    have e2 : (h ++ payload a).drop (20 + a.cols * 8) = (transposeL a.cols a.codes).flatten.flatten := by
      rw [← List.drop_drop, e20', hpay, ← hpf, List.drop_left' rfl]
    rw [e1, e2, frombuffer_flatten (by omega) hpx]
    simp only [Option.bind_some]
    have hel1 : ∀ e ∈ (transposeL a.cols a.codes).flatten, e.length = 1 := by
      intro e he
      obtain ⟨r, hr, her⟩ := List.mem_flatten.1 he
      exact mem_transposeL_mem (n := a.cols) (P := fun e : Bytes => e.length = 1)
          (fun r hr e he => by have := hwf.code r hr e he; rw [h1] at this; simpa using this) r hr e her
    rw [frombuffer_flatten (by omega) hel1]
    simp only [Option.bind_some]
    rw [reshape_flatten (mem_transposeL hwf.rowLen) transposeL_length]
    simp only [Option.bind_some, Option.pure_def]
    rw [transpose_transpose hwf.rowLen rfl, ← hp, ← h1]
  · have hpay : payload a = a.codes.flatten.flatten := by simp [payload, h1]
    have hpn : a.perc = none := by have := hwf.perc; rwa [if_neg h1] at this
    simp only [h1, if_false]
    by_cases h2 : a.fmt = 2
    · have hel2 : ∀ e ∈ a.codes.flatten, e.length = 2 := by
        intro e he; rw [hel e he, h2]; rfl
      simp only [h2, if_true]
      rw [hpay, frombuffer_flatten (by omega) hel2]
      simp only [Option.bind_some]
      rw [reshape_flatten hwf.rowLen rfl]
      simp only [Option.bind_some, Option.pure_def]
      rw [← hpn, ← h2]
    · have hel2 : ∀ e ∈ a.codes.flatten, e.length = 1 := by
        intro e he; rw [hel e he]; simp [cmW, h2]
      simp only [h2, if_false]
      rw [hpay, frombuffer_flatten (by omega) hel2]
      simp only [Option.bind_some]
      rw [reshape_flatten hwf.rowLen rfl]
      simp only [Option.bind_some, Option.pure_def]
      rw [← hpn]

/-- Conversely, coded values and attributes taken from a compressed matrix rebuild exactly its bytes. -/
theorem C25_build_of_attrs (d : Bytes) (a : CmAttrs) (h : cmGetAttrs d = some a) : cmBuild a = some d := by
  unfold cmGetAttrs at h
  simp only [Option.bind_eq_bind, Option.bind_eq_some_iff] at h
  obtain ⟨hd, hu, h⟩ := h
  obtain ⟨hp, hm, hr, hl⟩ := packHead_unpack hu
  have hsplit : d.take 20 ++ d.drop 20 = d := List.take_append_drop 20 d
  by_cases h1 : hd.fmt = 1
  · simp only [h1, if_true, Option.bind_eq_some_iff] at h
    obtain ⟨p, hpf, v, hv, cs, hcs, h⟩ := h
    simp only [Option.pure_def, Option.some.injEq] at h
    subst h
    obtain ⟨hcs1, hcs2, hcs3⟩ := reshape_eq_some hcs
    obtain ⟨hv1, hv2⟩ := frombuffer_eq_some hv
    obtain ⟨hp1, hp2⟩ := frombuffer_eq_some hpf
    have hlen : (transposeL hd.rows cs).length = hd.rows := transposeL_length
    have hp' : packHead ⟨1, hd.mn, hd.rg, hd.rows, hd.cols⟩ = some (d.take 20) := by rw [← h1]; exact hp
    unfold cmBuild
    simp only [Option.bind_eq_bind, hlen, hp', Option.bind_some, if_true]
    rw [transpose_transpose hcs3 hcs2, hcs1, hv1, hp1]
    simp only [Option.pure_def, Option.some.injEq]
    rw [List.drop_take, ← List.drop_drop]
    rw [show 20 + hd.cols * 8 - 20 = hd.cols * 8 by omega, List.append_assoc, List.take_append_drop, hsplit]
  · have key : ∀ w, (∃ v, frombuffer w (d.drop 20) = some v ∧ ∃ rows, reshape hd.rows hd.cols v = some rows ∧
        some (⟨hd.fmt, hd.mn, hd.rg, none, hd.cols, rows⟩ : CmAttrs) = some a) → cmBuild a = some d := by
      rintro w ⟨v, hv, rows, hrows, hh⟩
      obtain rfl := Option.some.inj hh
      obtain ⟨hr1, hr2, hr3⟩ := reshape_eq_some hrows
      obtain ⟨hv1, hv2⟩ := frombuffer_eq_some hv
      unfold cmBuild
      simp only [Option.bind_eq_bind, hr2, h1, if_false]
      have hp' : packHead ⟨hd.fmt, hd.mn, hd.rg, hd.rows, hd.cols⟩ = some (d.take 20) := hp
      rw [hp']
      simp only [Option.bind_some, Option.pure_def, hr1, hv1, hsplit]
    simp only [h1, if_false] at h
    by_cases h2 : hd.fmt = 2
    · simp only [h2, if_true, Option.bind_eq_some_iff, Option.pure_def] at h
      rw [← h2] at h
      exact key 2 h
    · simp only [h2, if_false, Option.bind_eq_some_iff, Option.pure_def] at h
      exact key 1 h

/-- Writing a compressed matrix and reading it back, for any buffering and following bytes, gives the same
bytes and stops exactly at its end. -/
theorem C25_read_write (a : CmAttrs) (hwf : a.WF) (d : Bytes) (hd : cmBuild a = some d) :
    ∃ out, cmWrite (some d) = some out ∧ ∀ (pk : Peek) (rest : Bytes), cmRead pk 0 0 (out ++ rest) = some (d, rest) := by
  obtain ⟨out, ho, _, hr⟩ := cmRead_write hwf hd
  refine ⟨out, ho, fun pk rest => ?_⟩
  rw [hr pk 0 0 rest, if_pos (by omega)]
  have : a.slice 0 0 = a := by simp [CmAttrs.slice]
  rw [this, hd]; rfl

/-- The empty object (`KaldiCompressedMatrix()`) is written as an empty matrix and read back as a 0x0 one. -/
theorem C25_empty (pk : Peek) (rest : Bytes) :
    ∃ out, cmWrite none = some out ∧ ∃ d, cmRead pk 0 0 (out ++ rest) = some (d, rest) ∧
      cmGetAttrs d = some ⟨1, [0, 0, 0, 0], [0, 0, 0, 0], some [], 0, []⟩ := by
  have hwf : CmAttrs.WF ⟨1, [0, 0, 0, 0], [0, 0, 0, 0], some [], 0, []⟩ :=
    ⟨Or.inl rfl, rfl, rfl, by decide, by decide, by decide, by decide, by simp⟩
  obtain ⟨d, hd, hg⟩ := C25_attrs_round_trip _ hwf
  obtain ⟨out, ho, hr⟩ := C25_read_write _ hwf d hd
  have hd' : d = [1, 0, 0, 0] ++ List.replicate 16 0 := by
    have : cmBuild ⟨1, [0, 0, 0, 0], [0, 0, 0, 0], some [], 0, []⟩ = some ([1, 0, 0, 0] ++ List.replicate 16 0) := by decide
    rw [this] at hd; exact (Option.some.inj hd).symm
  have ho' : cmWrite none = some out := by rw [← ho, hd']; decide
  exact ⟨out, ho', d, hr pk rest, hg⟩

/-! ### decoding -/

theorem flatten_singletons {x : List Bytes} (h : ∀ e ∈ x, e.length = 1) : x.flatten.map (fun b => [b]) = x := by
  induction x with
  | nil => rfl
  | cons e x ih =>
    have he := h e (by simp)
    rw [List.flatten_cons, List.map_append, ih (fun y hy => h y (List.mem_cons_of_mem _ hy))]
    match e, he with
    | [b], _ => rfl

theorem transposeL_decode (f : Bytes → Bytes → Bytes) {heads : List Bytes} {codes : List (List Bytes)} {cols : Nat}
    (hh : heads.length = cols) (h : ∀ r ∈ codes, r.length = cols) :
    transposeL codes.length (List.zipWith (fun hd c => c.map (f hd)) heads (transposeL cols codes)) =
      codes.map (fun r => List.zipWith f heads r) := by
  have hlen : ∀ x ∈ List.zipWith (fun hd c => c.map (f hd)) heads (transposeL cols codes), x.length = codes.length := by
    intro x hx
    obtain ⟨j, hj, rfl⟩ := List.mem_iff_getElem.1 hx
    rw [List.getElem_zipWith, List.length_map]
    exact mem_transposeL h _ (List.getElem_mem _)
  rw [transposeL_eq hlen, transposeL_eq h]
  apply List.ext_getElem
  · simp
  · intro i h1 h2
    have hi : i < codes.length := by simpa using h2
    have hci := h codes[i] (List.getElem_mem _)
    apply List.ext_getElem
    · simp [hh, hci]
    · intro j h3 h4
      have hj : j < cols := by simp [hh] at h3; exact h3
      simp [List.getD, List.getElem?_eq_getElem hi, List.getElem?_eq_getElem (show j < codes[i].length by omega)]

/-- Decompression of a compressed matrix is the element-wise decoding of its codes. -/
theorem cmToNd_build (D : Decoder) {a : CmAttrs} (hwf : a.WF) {d : Bytes} (hd : cmBuild a = some d) :
    cmToNd D d = some (.mat .f32 a.cols (a.codes.map (a.decodeRow D))) := by
  obtain ⟨h, hh, hb⟩ := cmBuild_eq hwf
  rw [hd] at hb
  obtain rfl := Option.some.inj hb
  obtain ⟨hu, hl⟩ := unpackHead_pack hwf.mn hwf.rg hh
  have e20 : (h ++ payload a).take 20 = h := List.take_left' hl
  have e20' : (h ++ payload a).drop 20 = payload a := List.drop_left' hl
  have hel : ∀ e ∈ a.codes.flatten, e.length = cmW a.fmt := by
    intro e he
    obtain ⟨r, hr, her⟩ := List.mem_flatten.1 he
    exact cmW_eq hwf r hr e her
  unfold cmToNd
  simp only [Option.bind_eq_bind, e20, hu, Option.bind_some, e20']
  by_cases h1 : a.fmt = 1
  · simp only [h1, if_true]
    have hpf := perc_flatten_length hwf h1
    have hpay : payload a = (a.perc.getD []).flatten ++ ((transposeL a.cols a.codes).map List.flatten).flatten := by
      simp [payload, h1]
    have hheads : chunks 8 a.cols (payload a) = a.colHeads := by
      rw [hpay]
      unfold CmAttrs.colHeads
      have hfc : (chunks 8 a.cols ((a.perc.getD []).flatten)).flatten = (a.perc.getD []).flatten := flatten_chunks hpf
      conv_lhs => rw [← hfc]
      have := chunks_flatten (mem_chunks_length hpf) ((transposeL a.cols a.codes).map List.flatten).flatten
      rwa [chunks_length] at this
    have hcols : chunks a.codes.length a.cols ((payload a).drop (a.cols * 8)) =
        (transposeL a.cols a.codes).map List.flatten := by
      rw [hpay, ← hpf, List.drop_left' rfl]
      exact chunks_flatten' (col_bytes_length hwf h1) (by simp [transposeL])
    rw [hheads, hcols]
    have hhl : ∀ x ∈ a.colHeads, x.length = 8 := mem_chunks_length hpf
    rw [mapM_eq_some_map (g := fun p : Bytes × Bytes => p.2.map (fun b => D.chr a.mn a.rg p.1 [b]))]
    · simp only [Option.bind_some, Option.pure_def]
      have hdr : a.decodeRow D = fun r => List.zipWith (D.chr a.mn a.rg) a.colHeads r := by
        funext r; simp [CmAttrs.decodeRow, h1]
      rw [hdr, ← transposeL_decode (heads := a.colHeads) (D.chr a.mn a.rg) (chunks_length _ _ _) hwf.rowLen]
      congr 3
      rw [List.zip_map_right, List.map_map]
      have hzw : List.zipWith (fun hd c => List.map (D.chr a.mn a.rg hd) c) a.colHeads (transposeL a.cols a.codes) =
          (a.colHeads.zip (transposeL a.cols a.codes)).map (fun p => List.map (D.chr a.mn a.rg p.1) p.2) := by
        rw [List.zip, List.map_zipWith]
      rw [hzw]
      apply List.map_congr_left
      intro p hp
      have hp2 : p.2 ∈ transposeL a.cols a.codes := (List.of_mem_zip hp).2
      have hl1 : ∀ e ∈ p.2, e.length = 1 :=
        mem_transposeL_mem (n := a.cols) (P := fun e : Bytes => e.length = 1)
          (fun r hr e he => by have := hwf.code r hr e he; rw [h1] at this; simpa using this) p.2 hp2
      have hs := flatten_singletons hl1
      simp only [Function.comp, Prod.map, id]
      conv_rhs => rw [← hs]
      simp [List.map_map, Function.comp_def]
    · intro p hp
      have hp1 := hhl p.1 (List.of_mem_zip hp).1
      have hp2 := col_bytes_length hwf h1 p.2 (List.of_mem_zip hp).2
      simp [hp1, hp2]
  · have hpay : payload a = a.codes.flatten.flatten := by simp [payload, h1]
    simp only [h1, if_false]
    by_cases h2 : a.fmt = 2
    · have hel2 : ∀ e ∈ a.codes.flatten, e.length = 2 := by
        intro e he; rw [hel e he, h2]; rfl
      have hdr : a.decodeRow D = fun r => r.map (D.u16 a.mn a.rg) := by funext r; simp [CmAttrs.decodeRow, h2]
      simp only [h2, if_true]
      rw [hpay, frombuffer_flatten (by omega) hel2]
      simp only [Option.bind_some]
      rw [List.map_flatten, reshape_flatten (by
        intro x hx; obtain ⟨r, hr, rfl⟩ := List.mem_map.1 hx; simp [hwf.rowLen r hr]) (by simp), hdr]
      rfl
    · have hel2 : ∀ e ∈ a.codes.flatten, e.length = 1 := by
        intro e he; rw [hel e he]; simp [cmW, h2]
      have hdr : a.decodeRow D = fun r => r.map (D.u8 a.mn a.rg) := by funext r; simp [CmAttrs.decodeRow, h1, h2]
      simp only [h2, if_false]
      rw [hpay, frombuffer_flatten (by omega) hel2]
      simp only [Option.bind_some]
      rw [List.map_flatten, reshape_flatten (by
        intro x hx; obtain ⟨r, hr, rfl⟩ := List.mem_map.1 hx; simp [hwf.rowLen r hr]) (by simp), hdr]
      rfl

/-- Uncompressing depends only on the codes, the header numbers and, in format 1, the percentiles of the
column: the array returned is the codes decoded one by one. -/
theorem C25_decompress_elementwise (D : Decoder) (a : CmAttrs) (hwf : a.WF) (d : Bytes) (hd : cmBuild a = some d) :
    cmToNd D d = some (.mat .f32 a.cols (a.codes.map (a.decodeRow D))) := cmToNd_build D hwf hd

theorem CmAttrs.WF.slice {a : CmAttrs} (hwf : a.WF) (off n : Nat) : (a.slice off n).WF := by
  have hm : ∀ r ∈ (a.slice off n).codes, r ∈ a.codes := by
    intro r hr
    simp only [CmAttrs.slice] at hr
    split at hr
    · exact List.mem_of_mem_drop hr
    · exact List.mem_of_mem_drop (List.mem_of_mem_take hr)
  have := hwf.rows
  refine ⟨hwf.fmt, hwf.mn, hwf.rg, ?_, hwf.cols, fun r hr => hwf.rowLen r (hm r hr), fun r hr => hwf.code r (hm r hr), hwf.perc⟩
  simp only [CmAttrs.slice]
  split <;> simp <;> omega

/-! ## C21 (compressed) -/

/-- Reading rows `off..off+n` (`n = 0`: to the end) of a stored compressed matrix gives the compressed matrix of
exactly these rows (same header numbers and percentiles), and `KaldiMatrix.read` gives the same rows of the
uncompressed matrix. The reader stops at the end of the record in both modes. A range that does not fit raises. -/
theorem C21_row_range_compressed (D : Decoder) (a : CmAttrs) (hwf : a.WF) (d : Bytes) (hd : cmBuild a = some d) :
    ∃ out full, cmWrite (some d) = some out ∧ cmToNd D d = some (.mat .f32 a.cols full) ∧
      ∀ (pk : Peek) (off n : Nat) (seqMode : Bool) (rest : Bytes),
        (off + n ≤ a.codes.length →
          cmRead pk off n (out ++ rest) = (cmBuild (a.slice off n)).map (fun b => (b, rest)) ∧
          readMat pk D off n seqMode (out ++ rest) =
            some (.mat .f32 a.cols (if n = 0 then full.drop off else (full.drop off).take n), rest)) ∧
        (a.codes.length < off + n →
          cmRead pk off n (out ++ rest) = none ∧ readMat pk D off n seqMode (out ++ rest) = none) := by
  obtain ⟨out, ho, h67, hr⟩ := cmRead_write hwf hd
  refine ⟨out, _, ho, cmToNd_build D hwf hd, fun pk off n seqMode rest => ?_⟩
  have hp : peek pk 1 (out ++ rest) = [67] := by
    rw [peek_eq_take pk (by omega)]
    cases out with
    | nil => simp at h67
    | cons x xs => simpa using h67
  unfold readMat
  rw [if_pos hp, hr pk off n rest]
  refine ⟨fun hle => ?_, fun hlt => ?_⟩
  · rw [if_pos hle]
    refine ⟨rfl, ?_⟩
    have hws := CmAttrs.WF.slice hwf off n
    obtain ⟨h', _, hb'⟩ := cmBuild_eq hws
    rw [hb']
    simp only [Option.map_some, Option.bind_eq_bind, Option.bind_some]
    rw [cmToNd_build D hws hb']
    have hdr : (a.slice off n).decodeRow D = a.decodeRow D := by
      funext r; rfl
    rw [hdr]
    simp only [CmAttrs.slice, Option.bind_some, Option.pure_def, Option.some.injEq, Prod.mk.injEq, and_true]
    split <;> simp [List.map_drop, List.map_take]
  · rw [if_neg (by omega)]
    exact ⟨rfl, rfl⟩

/-- `read_shape` of a compressed matrix: its shape, and in sequential mode the reader stops at its end. -/
theorem C21_compressed_shape (a : CmAttrs) (hwf : a.WF) (d : Bytes) (hd : cmBuild a = some d) :
    ∃ out, cmWrite (some d) = some out ∧ ∀ (pk : Peek) (rest : Bytes),
      readShape pk true (out ++ rest) = some ([a.codes.length, a.cols], rest) ∧
      (readShape pk false (out ++ rest)).map (·.1) = some [a.codes.length, a.cols] := by
  obtain ⟨h, hh, hb⟩ := cmBuild_eq hwf
  rw [hd] at hb
  obtain rfl := Option.some.inj hb
  obtain ⟨hu, hl⟩ := unpackHead_pack hwf.mn hwf.rg hh
  obtain ⟨t, tb, ht, htw, htn, htf, h67⟩ := cmToken_some hwf.fmt
  obtain ⟨hf4, hsplit⟩ := packHead_take hh
  have hl16 : (h.drop 4).length = 16 := by simp [hl]
  have e20 : (h ++ payload a).take 20 = h := List.take_left' hl
  have e4 : (h ++ payload a).drop 4 = h.drop 4 ++ payload a := List.drop_append_of_le_length (by omega)
  refine ⟨tb ++ (h.drop 4 ++ payload a), ?_, ?_⟩
  · unfold cmWrite
    simp only [Option.bind_eq_bind, e20, hu, Option.bind_some, ht, e4]
    rfl
  · intro pk rest
    have hp : peek pk 1 (tb ++ (h.drop 4 ++ payload a) ++ rest) = [67] := by
      rw [peek_eq_take pk (by omega)]
      cases tb with
      | nil => simp at h67
      | cons x xs => simpa using h67
    have e16 : (h.drop 4 ++ payload a ++ rest).take 16 = h.drop 4 := by
      rw [List.append_assoc, ← hl16, List.take_left' rfl]
    have e16' : (h.drop 4 ++ payload a ++ rest).drop 16 = payload a ++ rest := by
      rw [List.append_assoc, ← hl16, List.drop_left' rfl]
    have hf4' : packI32 a.fmt = some (h.take 4) := hf4
    have hsz : cmDataSize ⟨a.fmt, a.mn, a.rg, a.codes.length, a.cols⟩ = (payload a).length := by
      rw [payload_length hwf]
      unfold cmDataSize cmColHead cmW
      simp only
      by_cases h1 : a.fmt = 1
      · simp [h1, Nat.mul_add]
      · by_cases h2 : a.fmt = 2
        · simp [h2, Nat.mul_comm, Nat.mul_left_comm]
        · simp [h1, h2, Nat.mul_comm]
    have key : ∀ b, cmShape pk b (tb ++ (h.drop 4 ++ payload a) ++ rest) =
        some ([a.codes.length, a.cols], if b then rest else payload a ++ rest) := by
      intro b
      unfold cmShape
      rw [List.append_assoc, readToken_writeToken pk true htn htw]
      simp only [Option.bind_eq_bind, Option.bind_some, htf, hf4', e16, e16']
      rw [← hsplit, hu]
      simp only [Option.bind_some, hsz, List.drop_left' rfl, Option.pure_def]
    unfold readShape
    rw [if_pos hp, if_pos hp, key, key]
    exact ⟨rfl, rfl⟩

/-- a format-1 and a format-2 matrix meeting the hypotheses. -/
example : CmAttrs.WF ⟨1, [0, 0, 0, 0], [0, 0, 128, 63], some [[1, 0], [2, 0], [3, 0], [4, 0], [5, 0], [6, 0], [7, 0], [8, 0]], 2,
    [[[10], [20]], [[30], [40]], [[50], [60]]]⟩ :=
  ⟨Or.inl rfl, rfl, rfl, by decide, by decide, by decide, by decide, by simp⟩

example : CmAttrs.WF ⟨2, [0, 0, 0, 0], [0, 0, 128, 63], none, 2, [[[10, 1], [20, 2]], [[30, 3], [40, 4]]]⟩ :=
  ⟨Or.inr (Or.inl rfl), rfl, rfl, by decide, by decide, by decide, by decide, by simp⟩

end Hyp.Kaldi
