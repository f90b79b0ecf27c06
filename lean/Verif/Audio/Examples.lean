import Verif.Audio.MfccJobProps

/-! Defects of the audio readers and writers on concrete inputs, and concrete cases of C128-C134. -/

namespace Hyp.Audio
open Hyp.Text Hyp.Segments

/-- two recordings and a command. -/
def exWorld : World ℚ :=
  ⟨fun p => if p = "a.wav".toList then some ⟨[1, 2, 3, 4, 5], 2⟩ else if p = "b.wav".toList then some ⟨[7, 8], 2⟩ else none,
   fun c => if c = "cat b.sph ".toList then (0, some ⟨[9], 2⟩) else (1, none)⟩

/-- **C129 (defect).** The script of an audio reader is parsed as if its lines could hold an offset (`path:offset`) or a range (`path[a:b]`). A command with a
colon makes the reader raise if it is on the first line; on a later line the command is cut at the colon, and so is a path or a command at a bracket: the reader
then raises at that record, or reads another file, here `b.wav` instead of `b.wav[1:2].wav`. -/
theorem C129_colon_bracket_defect :
    (Scp.load ' ' ':' "k sox a:b.sph |\n".toList).isNone = true ∧
    (Scp.load ' ' ':' "a a.wav\nk cat d:b.sph |\n".toList).map (fun x => x.entries.map (fun e => e.2.1)) =
      some ["a.wav".toList, "cat d".toList] ∧
    (Scp.load ' ' ':' "a b.wav[1:2].wav\nk a.wav\n".toList).map (fun x => x.entries.map (fun e => e.2.1)) =
      some ["b.wav".toList, "a.wav".toList] ∧
    (∀ w : World ℚ, w.file "b.wav".toList = some ⟨[7, 8], 2⟩ →
      ((openSeq "a b.wav[1:2].wav\nk a.wav\n".toList none 1 1 1).bind (fun r => r.read w 1)).map (fun p => p.1) =
        some [("a".toList, ⟨[7, 8], 2⟩)]) := by
  refine ⟨by decide +kernel, by decide +kernel, by decide +kernel, ?_⟩
  intro w hw
  have hl : ∃ x, Scp.load ' ' ':' "a b.wav[1:2].wav\nk a.wav\n".toList = some x ∧ x.entries[0]? = some ("a".toList, "b.wav".toList, none, some (1, 0)) := by
    have h : (Scp.load ' ' ':' "a b.wav[1:2].wav\nk a.wav\n".toList).bind (fun x => x.entries[0]?) = some ("a".toList, "b.wav".toList, none, some (1, 0)) := by
      decide +kernel
    exact Option.bind_eq_some_iff.1 h
  obtain ⟨x, hl, he⟩ := hl
  obtain ⟨r, hr, hh⟩ := C129_history w _ x hl (1 : ℚ)
  have hsp : readSpec w (1 : ℚ) "b.wav".toList = some ⟨[7, 8], 2⟩ := by
    have hs : readSpec w (1 : ℚ) "b.wav".toList = (w.file "b.wav".toList).map (scaled 1) := by
      unfold readSpec
      have h1 : (strip "b.wav".toList).getLast? = some 'v' := by decide +kernel
      have h2 : splitExt (strip "b.wav".toList) ∈ validExt := by decide +kernel
      have h3 : strip "b.wav".toList = "b.wav".toList := by decide +kernel
      rw [h1]
      show (if 'v' = '|' then _ else _) = _
      rw [if_neg (by decide), if_pos h2, h3]
    rw [hs, hw]
    decide +kernel
  have ht : x.entries.take 1 = [("a".toList, "b.wav".toList, none, some (1, 0))] := by
    rcases hx : x.entries with _ | ⟨e, es⟩
    · rw [hx] at he; cases he
    · rw [hx] at he
      simp only [List.getElem?_cons_zero, Option.some.injEq] at he
      rw [he]; rfl
  have h1 := (hh [1] (by simp) [("a".toList, ⟨[7, 8], 2⟩)] _).1.2 ⟨by
    rw [List.sum_singleton, ht, List.mapM_cons, List.mapM_nil, hsp]; rfl, rfl⟩
  rw [hr, Option.bind_some]
  have h2 : runReads w [1] r = (r.read w 1).map (fun p => (p.1, p.2)) := by
    show (r.read w 1).bind (fun p => (some (([] : List (Str × Wave ℚ)), p.2)).map (fun q => (p.1 ++ q.1, q.2))) = _
    cases r.read w 1 <;> simp
  rw [h2] at h1
  rcases hq : r.read w 1 with _ | q
  · rw [hq] at h1; cases h1
  · rw [hq] at h1
    simp only [Option.map_some, Option.some.injEq, Prod.mk.injEq] at h1
    rw [Option.map_some, h1.1]

/-- **C130 (defect).** With segments, `read()` ("all the records") is counted on the recordings: one recording with two segments gives one record. -/
theorem C130_read_all_defect :
    ((openSeq "a a.wav\n".toList (some [⟨"s1".toList, "a", 0, 1⟩, ⟨"s2".toList, "a", 1, 2⟩]) (1 : ℚ) 1 1).bind
      (fun r => r.read exWorld 0)).map (fun p => (p.1, p.2.eof)) = some ([("s1".toList, ⟨[1, 2], 2⟩)], false) := by decide +kernel

/-- C129-C131 on a script of three entries: reads of 2 and of the rest, iteration and random access. -/
example :
    ((openSeq "a a.wav\nb b.wav\nc cat b.sph |\n".toList none (2 : ℚ) 1 1).bind (fun r => runReads exWorld [2, 5] r)).map (fun p => p.1) =
      some [("a".toList, ⟨[2, 4, 6, 8, 10], 2⟩), ("b".toList, ⟨[14, 16], 2⟩), ("c".toList, ⟨[18], 2⟩)] ∧
    ((openSeq "a a.wav\nb b.wav\nc cat b.sph |\n".toList none (2 : ℚ) 2 2).bind (fun r => r.iter exWorld r.fuel)).map (fun p => p.1.map Prod.fst) =
      some ["b".toList, "c".toList] ∧
    (openBase "a a.wav\nb b.wav\nc cat b.sph |\n".toList none (2 : ℚ)).bind (fun r => r.readKeys exWorld ["c".toList, "b".toList]) =
      some [⟨[18], 2⟩, ⟨[14, 16], 2⟩] ∧
    ((openSeq "a a.wav\nb b.wav\n".toList (some [⟨"s1".toList, "b", 0, 1⟩, ⟨"s2".toList, "a", 1, 2⟩, ⟨"s3".toList, "a", 3 / 2, 9⟩]) (1 : ℚ) 1 1).bind
      (fun r => r.iter exWorld r.fuel)).map (fun p => p.1) =
      some [("s1".toList, ⟨[7, 8], 2⟩), ("s2".toList, ⟨[3, 4], 2⟩), ("s3".toList, ⟨[4, 5], 2⟩)] ∧
    (openBase "a a.wav\nb b.wav\n".toList (some [⟨"s1".toList, "b", 0, 1⟩, ⟨"s2".toList, "a", 1, 2⟩]) (1 : ℚ)).bind
      (fun r => r.readKeys exWorld ["s2".toList]) = some [⟨[3, 4], 2⟩] := by decide +kernel

/-- C130: a tiling of a recording of 5 samples at 2 Hz. -/
example : (((0 : ℚ) :: [1, 2, 5 / 2]).Pairwise (· ≤ ·)) ∧ (∀ u ∈ ((0 : ℚ) :: [1, 2, 5 / 2]).dropLast, ⌊u * ((2 : Nat) : ℚ)⌋₊ < 5) ∧
    5 ≤ ⌊([1, 2, 5 / 2] : List ℚ).getLastD 0 * ((2 : Nat) : ℚ)⌋₊ := by decide +kernel

/-- a codec which stores everything, in single precision for FLOAT, else as 16 bit integers. -/
def exCodec : Codec ℚ :=
  ⟨fun _ => some "PCM_16".toList, fun _ _ => true, fun _ _ d x => if d = "int16".toList then (x.samples.mapM (fun v : ℚ => pcm16 v)).map (fun s => ⟨s, x.fs⟩) else none⟩

/-- C132, C133: two calls, read back with the scale 2^15. -/
example : ∃ g, openWriter exCodec "out".toList true "wav".toList none [' '] = some g ∧
    OutOk g.out g.format ∧ g.script = true ∧ g.sep = [' '] ∧ npDtype.lookup g.subtype = some "int16".toList ∧
    KeyOk "r/1".toList ∧ KeyOk "r2".toList ∧
    exCodec.store g.format g.subtype "int16".toList ⟨[1, -32768], 8000⟩ = some ⟨[1 / 32768, -1], 8000⟩ ∧
    (runCalls exCodec g ⟨fun _ => none, []⟩ [(["r/1".toList], [[1, -32768]], .one 8000), (["r2".toList], [[5]], .list [16000])]).script =
      "r/1 out/r-1.wav\nr2 out/r2.wav\n".toList ∧
    ((openSeq (runCalls exCodec g ⟨fun _ => none, []⟩ [(["r/1".toList], [[1, -32768]], .one 8000), (["r2".toList], [[5]], .list [16000])]).script none
        (2 ^ 15 : ℚ) 1 1).bind (fun r => r.iter ⟨(runCalls exCodec g ⟨fun _ => none, []⟩
          [(["r/1".toList], [[1, -32768]], .one 8000), (["r2".toList], [[5]], .list [16000])]).disk, fun _ => (1, none)⟩ r.fuel)).map (fun p => p.1) =
      some [("r/1".toList, ⟨[1, -32768], 8000⟩), ("r2".toList, ⟨[5], 16000⟩)] := by
  refine ⟨⟨"out".toList, true, "wav".toList, "PCM_16".toList, [' ']⟩, by decide +kernel, ⟨by decide +kernel, by decide +kernel, by decide +kernel⟩, rfl, rfl, by decide +kernel,
    ⟨by decide +kernel, by decide +kernel, by decide +kernel, by decide +kernel⟩, ⟨by decide +kernel, by decide +kernel, by decide +kernel, by decide +kernel⟩,
    by decide +kernel, by decide +kernel, by decide +kernel⟩

/-- **C132 (defect).** Two different keys in one call: both are reported as written, but the file of the first holds the signal of the second. -/
theorem C132_collision_overwrites : ∃ st : WState ℚ,
    write exCodec ⟨"o".toList, true, "wav".toList, "PCM_16".toList, [' ']⟩ ⟨fun _ => none, []⟩ ["a/b".toList, "a-b".toList] [[1], [2]] (.one 8000) = (st, true) ∧
    st.script = "a/b o/a-b.wav\na-b o/a-b.wav\n".toList ∧ st.disk "o/a-b.wav".toList = some ⟨[2 / 32768], 8000⟩ := by
  refine ⟨_, Prod.ext rfl ?_, ?_, ?_⟩ <;> decide +kernel

/-- **C133 (defect).** A key made of dots is written, but cannot be read back (the file `...wav` has no extension for `os.path.splitext`). -/
theorem C133_dots_defect :
    (write exCodec ⟨"o".toList, true, "wav".toList, "PCM_16".toList, [' ']⟩ ⟨fun _ => none, []⟩ ["..".toList] [[1]] (.one 8000)).2 = true ∧
    ∀ (w : World ℚ), readSpec w 1 "o/...wav".toList = none := by
  refine ⟨by decide +kernel, ?_⟩
  intro w
  unfold readSpec
  have h1 : (strip "o/...wav".toList).getLast? = some 'v' := by decide +kernel
  have h2 : splitExt (strip "o/...wav".toList) ∉ validExt := by decide +kernel
  rw [h1]
  show (if 'v' = '|' then _ else _) = _
  rw [if_neg (by decide), if_neg h2]

end Hyp.Audio
