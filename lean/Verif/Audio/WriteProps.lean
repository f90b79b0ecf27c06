import Verif.Audio.RandProps
import Verif.Scp.TextProps

/-! C132, C133: the audio writer, and reading back what it wrote. -/

namespace Hyp.Audio
open Hyp.Text Hyp.Segments

variable {K : Type} [Field K] [LinearOrder K] [IsStrictOrderedRing K] [FloorRing K]

/-- what a record of a call becomes on disk, if nothing raises: the key is a token, there is a signal and a frequency for it, libsndfile accepts them. -/
def storedRec (c : Codec K) (g : WCfg) (dtype : Str) (r : Str × Option (Wave K)) : Option (Str × Wave K) :=
  if Kaldi.isToken r.1 then (r.2.bind (c.store g.format g.subtype dtype)).map (fun y => (r.1, y)) else none

/-- records put on disk one after the other. -/
def putAll (file : Str → Str) (line : Str → Str) (script : Bool) (st : WState K) (done : List (Str × Wave K)) : WState K :=
  ⟨fun p => ((done.filter (fun r => file r.1 == p)).getLast?.map (fun r => r.2)).or (st.disk p),
    if script then st.script ++ done.flatMap (fun r => line r.1) else st.script⟩

theorem putAll_nil (file line : Str → Str) (b : Bool) (st : WState K) : putAll file line b st [] = st := by
  unfold putAll
  cases b <;> simp

theorem putAll_append (file line : Str → Str) (b : Bool) (st : WState K) (xs ys : List (Str × Wave K)) :
    putAll file line b (putAll file line b st xs) ys = putAll file line b st (xs ++ ys) := by
  unfold putAll
  simp only [WState.mk.injEq]
  constructor
  · funext p
    rw [List.filter_append, List.getLast?_append]
    generalize (ys.filter (fun r => file r.1 == p)).getLast? = o
    generalize (xs.filter (fun r => file r.1 == p)).getLast? = o'
    cases o <;> rfl
  · cases b <;> simp

/-- audio_writer.py:107-108 in words: the directory, the key with `-` for `/`, the format. -/
def fileOf (out format key : Str) : Str := out ++ ['/'] ++ key.map (fun ch => if ch = '/' then '-' else ch) ++ ['.'] ++ format

/-- a line of the script. -/
def lineOf (out format sep key : Str) : Str := key ++ sep ++ fileOf out format key ++ ['\n']

theorem outFile_eq (g : WCfg) (key : Str) : outFile g key = fileOf g.out g.format key := by
  unfold outFile fileOf
  simp

theorem writeAll_eq (c : Codec K) (g : WCfg) (dtype : Str) (rs : List (Str × Option (Wave K))) (st : WState K) :
    writeAll c g dtype st rs =
      (putAll (fileOf g.out g.format) (lineOf g.out g.format g.sep) g.script st (((rs.map (storedRec c g dtype)).takeWhile Option.isSome).filterMap id),
        rs.all (fun r => (storedRec c g dtype r).isSome)) := by
  induction rs generalizing st with
  | nil => simp [writeAll, putAll_nil]
  | cons r rs ih =>
    unfold writeAll
    have h1 : writeOne c g dtype st r =
        match storedRec c g dtype r with
        | none => (st, false)
        | some p => (putAll (fileOf g.out g.format) (lineOf g.out g.format g.sep) g.script st [p], true) := by
      unfold writeOne storedRec
      by_cases ht : Kaldi.isToken r.1 = true
      · simp only [ht, if_true]
        rcases r.2.bind (c.store g.format g.subtype dtype) with _ | y
        · rfl
        · simp only [Option.map_some, putAll, Prod.mk.injEq, WState.mk.injEq, and_true]
          constructor
          · funext p
            rw [outFile_eq]
            by_cases hp : p = fileOf g.out g.format r.1
            · subst hp; simp
            · simp [hp, Ne.symm hp]
          · simp [lineOf, outFile_eq]
      · simp [ht]
    rw [h1]
    rcases h : storedRec c g dtype r with _ | p
    · simp [h, putAll_nil]
    · simp only [if_true, ih, putAll_append, List.map_cons, h, List.takeWhile_cons, Option.isSome_some, List.all_cons, Bool.true_and, List.filterMap_cons, id,
        List.singleton_append]

/-- **C132 (one call).** `write(keys, data, fs)` with a known subtype, whatever it raises: the records before the first one that raises (a key that is not a token, no
signal or no frequency for it, refused by libsndfile) are written, each in the file `out/key.format` with `-` for `/` in the key, and none of the
others; a file that got several records has the last one, every other file is untouched; with a script there is one line `key sep file` for each record
written, in order; the call succeeds iff no record raises. -/
theorem C132_write (c : Codec K) (g : WCfg) (st : WState K) (keys : List Str) (data : List (List K)) (fs : Fs) (dtype : Str)
    (hd : npDtype.lookup g.subtype = some dtype) :
    ∃ done : List (Str × Wave K),
      done = (((keys.zipIdx.map (fun p => if Kaldi.isToken p.1 then
          ((fs.get p.2).bind (fun f => data[p.2]?.bind (fun x => c.store g.format g.subtype dtype ⟨x, f⟩))).map (fun y => (p.1, y)) else none)).takeWhile
            Option.isSome).filterMap id) ∧
      (write c g st keys data fs).1.script =
        (if g.script then st.script ++ done.flatMap (fun r => lineOf g.out g.format g.sep r.1) else st.script) ∧
      (∀ p, (write c g st keys data fs).1.disk p =
        ((done.filter (fun r => fileOf g.out g.format r.1 == p)).getLast?.map (fun r => r.2)).or (st.disk p)) ∧
      ((write c g st keys data fs).2 = true ↔ done.length = keys.length) := by
  have hw : write c g st keys data fs = writeAll c g dtype st (records keys data fs) := by
    unfold write
    rw [hd]
  have hrec : (records keys data fs).map (storedRec c g dtype) = keys.zipIdx.map (fun p => if Kaldi.isToken p.1 then
          ((fs.get p.2).bind (fun f => data[p.2]?.bind (fun x => c.store g.format g.subtype dtype ⟨x, f⟩))).map (fun y => (p.1, y)) else none) := by
    unfold records storedRec
    rw [List.map_map]
    apply List.map_congr_left
    intro p _
    simp only [Function.comp]
    rcases fs.get p.2 with _ | f
    · rfl
    · rcases data[p.2]? with _ | x <;> rfl
  refine ⟨_, rfl, ?_, ?_, ?_⟩
  · rw [hw, writeAll_eq, ← hrec]; rfl
  · intro p
    rw [hw, writeAll_eq, ← hrec]; rfl
  · rw [hw, writeAll_eq, ← hrec]
    have hlen : keys.length = ((records keys data fs).map (storedRec c g dtype)).length := by
      simp [records]
    rw [hlen]
    have hall : ((records keys data fs).all (fun r => (storedRec c g dtype r).isSome)) =
        ((records keys data fs).map (storedRec c g dtype)).all Option.isSome := by
      rw [List.all_map]; rfl
    show ((records keys data fs).all (fun r => (storedRec c g dtype r).isSome)) = true ↔ _
    rw [hall]
    generalize (records keys data fs).map (storedRec c g dtype) = l
    induction l with
    | nil => simp
    | cons a l ih =>
      cases a with
      | none => simp
      | some a => simpa using ih

/-- a history of calls; the program may go on after an exception. -/
def runCalls (c : Codec K) (g : WCfg) (st : WState K) (calls : List (List Str × List (List K) × Fs)) : WState K :=
  calls.foldl (fun s a => (write c g s a.1 a.2.1 a.2.2).1) st

theorem write_put (c : Codec K) (g : WCfg) (keys : List Str) (data : List (List K)) (fs : Fs) :
    ∃ done : List (Str × Wave K), (∀ r ∈ done, r.1 ∈ keys ∧ Kaldi.isToken r.1 = true) ∧
      (∀ st, (write c g st keys data fs).1 = putAll (fileOf g.out g.format) (lineOf g.out g.format g.sep) g.script st done) := by
  unfold write
  rcases npDtype.lookup g.subtype with _ | dtype
  · exact ⟨[], by simp, fun st => (putAll_nil _ _ _ st).symm⟩
  · refine ⟨_, ?_, fun st => by dsimp only; rw [writeAll_eq]⟩
    intro r hr
    rw [List.mem_filterMap] at hr
    obtain ⟨o, ho, hor⟩ := hr
    simp only [id] at hor
    subst hor
    have := List.takeWhile_subset _ ho
    obtain ⟨q, hq, hqr⟩ := List.mem_map.1 this
    unfold storedRec at hqr
    by_cases ht : Kaldi.isToken q.1 = true
    · rw [if_pos ht] at hqr
      obtain ⟨y, _, rfl⟩ := Option.map_eq_some_iff.1 hqr
      refine ⟨?_, ht⟩
      unfold records at hq
      obtain ⟨p, hp, rfl⟩ := List.mem_map.1 hq
      exact (List.mem_zipIdx' hp).2 ▸ List.getElem_mem _
    · rw [if_neg ht] at hqr; cases hqr

/-- **C132 (history).** After any history of calls, some of which may have raised: there is the list of the records written, and the script has exactly one line for each of
them, in order; every file named in the script is on disk, with the last record of that file; the other files are as before. -/
theorem C132_history (c : Codec K) (g : WCfg) (hs : g.script = true) (disk : Str → Option (Wave K)) (calls : List (List Str × List (List K) × Fs)) :
    ∃ done : List (Str × Wave K),
      (runCalls c g ⟨disk, []⟩ calls).script = done.flatMap (fun r => r.1 ++ g.sep ++ fileOf g.out g.format r.1 ++ ['\n']) ∧
      (∀ r ∈ done, Kaldi.isToken r.1 = true ∧ (∃ a ∈ calls, r.1 ∈ a.1) ∧
        ∃ r' ∈ done, (runCalls c g ⟨disk, []⟩ calls).disk (fileOf g.out g.format r.1) = some r'.2 ∧ fileOf g.out g.format r'.1 = fileOf g.out g.format r.1) ∧
      (∀ p, (∀ r ∈ done, fileOf g.out g.format r.1 ≠ p) → (runCalls c g ⟨disk, []⟩ calls).disk p = disk p) := by
  have key : ∃ done : List (Str × Wave K), (∀ r ∈ done, Kaldi.isToken r.1 = true ∧ ∃ a ∈ calls, r.1 ∈ a.1) ∧
      runCalls c g ⟨disk, []⟩ calls = putAll (fileOf g.out g.format) (lineOf g.out g.format g.sep) g.script ⟨disk, []⟩ done := by
    induction calls using List.reverseRecOn with
    | nil => exact ⟨[], by simp, (putAll_nil _ _ _ _).symm⟩
    | append_singleton calls a ih =>
      obtain ⟨d1, h1, e1⟩ := ih
      obtain ⟨d2, h2, e2⟩ := write_put c g a.1 a.2.1 a.2.2
      refine ⟨d1 ++ d2, ?_, ?_⟩
      · intro r hr
        rcases List.mem_append.1 hr with hr | hr
        · obtain ⟨ht, b, hb, hrb⟩ := h1 r hr
          exact ⟨ht, b, by simp [hb], hrb⟩
        · exact ⟨(h2 r hr).2, a, by simp, (h2 r hr).1⟩
      · unfold runCalls at e1 ⊢
        rw [List.foldl_append, List.foldl_cons, List.foldl_nil, e1, e2, putAll_append]
  obtain ⟨done, h1, e⟩ := key
  refine ⟨done, ?_, ?_, ?_⟩
  · rw [e]
    unfold putAll lineOf
    simp [hs]
  · intro r hr
    obtain ⟨ht, ha⟩ := h1 r hr
    refine ⟨ht, ha, ?_⟩
    have hne : done.filter (fun q => fileOf g.out g.format q.1 == fileOf g.out g.format r.1) ≠ [] := by
      intro h0
      rw [List.filter_eq_nil_iff] at h0
      exact h0 r hr (by simp)
    have hmem := List.getLast_mem hne
    rw [List.mem_filter] at hmem
    refine ⟨_, hmem.1, ?_, by simpa using hmem.2⟩
    rw [e]
    unfold putAll
    dsimp only
    rw [List.getLast?_eq_some_getLast hne]
    rfl
  · intro p hp
    rw [e]
    unfold putAll
    have h0 : done.filter (fun q => fileOf g.out g.format q.1 == p) = [] := by
      rw [List.filter_eq_nil_iff]
      intro q hq h
      exact hp q hq (by simpa using h)
    simp [h0]

/-- **C132 (formats).** The writer can be made iff the format is one of the extensions that the reader knows and libsndfile has the subtype for it (its default
one if none is given). -/
theorem C132_formats (c : Codec K) (out : Str) (script : Bool) (format : Str) (subtype : Option Str) (sep : Str) (g : WCfg) :
    openWriter c out script format subtype sep = some g ↔
      String.ofList format ∈ audioExtensions ∧ g.out = out ∧ g.script = script ∧ g.format = format ∧ g.sep = sep ∧
        ((subtype = none ∧ c.defaultSubtype format = some g.subtype) ∨ (subtype = some g.subtype ∧ c.check format g.subtype = true)) := by
  unfold openWriter
  by_cases hv : '.' :: format ∈ validExt
  · rw [if_pos hv]
    simp only [(validExt_iff format).1 hv, true_and]
    obtain ⟨o, s, f, u, p⟩ := g
    cases subtype with
    | none =>
      simp only [Option.map_eq_some_iff, WCfg.mk.injEq, true_and, reduceCtorEq, false_and, or_false]
      constructor
      · rintro ⟨a, h, rfl, rfl, rfl, rfl, rfl⟩; exact ⟨rfl, rfl, rfl, rfl, h⟩
      · rintro ⟨rfl, rfl, rfl, rfl, h⟩; exact ⟨u, h, rfl, rfl, rfl, rfl, rfl⟩
    | some a =>
      simp only [Option.some.injEq, reduceCtorEq, false_and, false_or]
      by_cases hc : c.check format a = true
      · rw [if_pos hc]
        simp only [Option.some.injEq, WCfg.mk.injEq]
        constructor
        · rintro ⟨rfl, rfl, rfl, rfl, rfl⟩; exact ⟨rfl, rfl, rfl, rfl, rfl, hc⟩
        · rintro ⟨rfl, rfl, rfl, rfl, rfl, h⟩; exact ⟨rfl, rfl, rfl, rfl, rfl⟩
      · rw [if_neg hc]
        simp only [reduceCtorEq, false_iff]
        rintro ⟨_, _, _, _, rfl, h⟩
        exact hc h
  · rw [if_neg hv]
    simp only [reduceCtorEq, false_iff]
    rintro ⟨h, _⟩
    exact hv ((validExt_iff format).2 h)

/-- **C132 (sample types).** The types of the samples given to the library, one per subtype. -/
theorem C132_sample_types (subtype dtype : Str) :
    npDtype.lookup subtype = some dtype ↔ (String.ofList subtype, String.ofList dtype) ∈
      [("PCM_32", "int32"), ("PCM_24", "int24"), ("PCM_16", "int16"), ("PCM_S8", "int8"), ("PCM_U8", "uint8"), ("FLOAT", "float32"), ("DOUBLE", "float64"),
       ("VORBIS", "float32"), ("ALAW", "int16"), ("ULAW", "int16"), ("IMA_ADPCM", "int16"), ("MS_ADPCM", "int16"), ("GSM610", "int16"), ("G721_32", "int16")] := by
  have h1 : ∀ p ∈ npDtype, (String.ofList p.1, String.ofList p.2) ∈
      [("PCM_32", "int32"), ("PCM_24", "int24"), ("PCM_16", "int16"), ("PCM_S8", "int8"), ("PCM_U8", "uint8"), ("FLOAT", "float32"), ("DOUBLE", "float64"),
       ("VORBIS", "float32"), ("ALAW", "int16"), ("ULAW", "int16"), ("IMA_ADPCM", "int16"), ("MS_ADPCM", "int16"), ("GSM610", "int16"), ("G721_32", "int16")] := by
    decide +kernel
  have h2 : ∀ p ∈ [("PCM_32", "int32"), ("PCM_24", "int24"), ("PCM_16", "int16"), ("PCM_S8", "int8"), ("PCM_U8", "uint8"), ("FLOAT", "float32"), ("DOUBLE", "float64"),
       ("VORBIS", "float32"), ("ALAW", "int16"), ("ULAW", "int16"), ("IMA_ADPCM", "int16"), ("MS_ADPCM", "int16"), ("GSM610", "int16"), ("G721_32", "int16")],
      npDtype.lookup p.1.toList = some p.2.toList := by decide +kernel
  constructor
  · intro h
    have hm : (subtype, dtype) ∈ npDtype := by
      clear h1 h2
      revert h
      induction npDtype with
      | nil => intro h; cases h
      | cons a l ih =>
        intro h
        rw [List.lookup_cons] at h
        by_cases he : subtype == a.1
        · rw [he] at h
          have h4 : a.2 = dtype := Option.some.inj h
          rw [beq_iff_eq] at he
          rw [he, ← h4]; exact List.mem_cons_self
        · rw [Bool.not_eq_true] at he
          rw [he] at h
          exact List.mem_cons_of_mem _ (ih h)
    exact h1 _ hm
  · intro h
    have := h2 _ h
    rwa [String.toList_ofList, String.toList_ofList] at this

/-- **C132 (subtypes).** A subtype outside the table: every call raises and writes nothing. -/
theorem C132_unknown_subtype (c : Codec K) (g : WCfg) (st : WState K) (keys : List Str) (data : List (List K)) (fs : Fs)
    (h : String.ofList g.subtype ∉ ["PCM_32", "ALAW", "IMA_ADPCM", "FLOAT", "PCM_16", "DOUBLE", "MS_ADPCM", "ULAW", "PCM_U8", "PCM_S8", "VORBIS", "GSM610",
      "G721_32", "PCM_24"]) : write c g st keys data fs = (st, false) := by
  unfold write
  have : npDtype.lookup g.subtype = none := by
    rw [List.lookup_eq_none_iff]
    intro p hp
    rw [bne_iff_ne]
    intro he
    apply h
    rw [he]
    have hall : ∀ p ∈ npDtype, String.ofList p.1 ∈ ["PCM_32", "ALAW", "IMA_ADPCM", "FLOAT", "PCM_16", "DOUBLE", "MS_ADPCM", "ULAW", "PCM_U8", "PCM_S8", "VORBIS",
        "GSM610", "G721_32", "PCM_24"] := by decide +kernel
    exact hall p hp
  rw [this]

/-- C132 (a defect): the table gives `int24`, which is no numpy type, for 24 bit audio: every call with a record raises and writes nothing. -/
theorem C132_pcm24_defect (c : Codec K) (hc : ∀ f s x, c.store f s "int24".toList x = none) (g : WCfg) (hg : g.subtype = "PCM_24".toList) (st : WState K)
    (k : Str) (keys : List Str) (data : List (List K)) (fs : Fs) : write c g st (k :: keys) data fs = (st, false) := by
  have hd : npDtype.lookup g.subtype = some "int24".toList := by rw [hg]; decide +kernel
  unfold write
  rw [hd]
  dsimp only
  rw [writeAll_eq]
  unfold records
  rw [List.zipIdx_cons, List.map_cons, List.map_cons]
  have : ∀ r : Str × Option (Wave K), storedRec c g "int24".toList r = none := by
    intro r
    unfold storedRec
    have : r.2.bind (c.store g.format g.subtype "int24".toList) = none := by
      rcases r.2 with _ | x
      · rfl
      · exact hc _ _ _
    rw [this]
    simp
  rw [List.all_cons, this]
  simp [putAll_nil]

/-- C132 (a defect): two keys that differ in `/` and `-` only have the same file: the script lists both, and both get the signal written last. -/
theorem C132_collision (out format : Str) (a b : Str) : fileOf out format (a ++ '/' :: b) = fileOf out format (a ++ '-' :: b) := by
  unfold fileOf
  simp

end Hyp.Audio
