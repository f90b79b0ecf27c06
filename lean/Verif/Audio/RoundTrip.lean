import Verif.Audio.WriteProps

/-! C133: reading back what the audio writer wrote. -/

namespace Hyp.Audio
open Hyp.Text Hyp.Segments

variable {K : Type} [Field K] [LinearOrder K] [IsStrictOrderedRing K] [FloorRing K]

theorem token_char {t : Str} (h : Kaldi.isToken t = true) {c : Char} (hc : c ∈ t) : 32 < c.toNat ∧ c.toNat ≤ 126 := by
  unfold Kaldi.isToken at h
  simp only [Bool.and_eq_true, List.all_eq_true, decide_eq_true_eq, Bool.not_eq_true'] at h
  have h1 := h.1.2 c hc
  have h2 : c ≠ ' ' := by
    rintro rfl
    have := h.2
    rw [List.contains_iff_mem.2 hc] at this
    cases this
  have h3 : c.toNat ≠ 32 := by
    intro h
    apply h2
    have : c = Char.ofNat 32 := by rw [← h, Char.ofNat_toNat]
    rw [this]
  omega

theorem token_not {t : Str} (h : Kaldi.isToken t = true) {c : Char} (hc : c.toNat ≤ 32) : c ∉ t := by
  intro hm
  have := (token_char h hm).1
  omega

theorem dash_mem {key : Str} {c : Char} (hc : c ∈ key.map (fun ch => if ch = '/' then '-' else ch)) : c = '-' ∨ c ∈ key := by
  obtain ⟨d, hd, rfl⟩ := List.mem_map.1 hc
  split
  · exact Or.inl rfl
  · exact Or.inr hd

theorem dash_slash (key : Str) : '/' ∉ key.map (fun ch => if ch = '/' then '-' else ch) := by
  intro h
  obtain ⟨d, _, hd⟩ := List.mem_map.1 h
  by_cases h0 : d = '/'
  · rw [if_pos h0] at hd; exact absurd hd (by decide)
  · rw [if_neg h0] at hd; exact h0 hd

/-- the directory and the format are such that the paths survive the script file: no `:` or `[`, no line break, no white space at the beginning; the format is known. -/
structure OutOk (out format : Str) : Prop where
  chars : ∀ c ∈ out, c ≠ ':' ∧ c ≠ '[' ∧ c ≠ '\n' ∧ c ≠ '\r'
  start : ∀ c ∈ out.head?, isSpace c = false
  fmt : String.ofList format ∈ audioExtensions

/-- a key that survives the script file and the reader: a token without `:` and `[`, and not only dots. -/
structure KeyOk (key : Str) : Prop where
  token : Kaldi.isToken key = true
  colon : ':' ∉ key
  bracket : '[' ∉ key
  dots : ∃ c ∈ key, c ≠ '.'

theorem fmt_chars {format : Str} (h : String.ofList format ∈ audioExtensions) :
    format ≠ [] ∧ ∀ c ∈ format, c ≠ ':' ∧ c ≠ '[' ∧ c ≠ '\n' ∧ c ≠ '\r' ∧ c ≠ '/' ∧ c ≠ '.' ∧ c ≠ '|' ∧ isSpace c = false := by
  have hall : ∀ s ∈ audioExtensions, s.toList ≠ [] ∧
      ∀ c ∈ s.toList, c ≠ ':' ∧ c ≠ '[' ∧ c ≠ '\n' ∧ c ≠ '\r' ∧ c ≠ '/' ∧ c ≠ '.' ∧ c ≠ '|' ∧ isSpace c = false := by decide +kernel
  have := hall _ h
  simpa using this

theorem readSpec_written (w : World K) (scale : K) {out format key : Str} (ho : OutOk out format) (hk : KeyOk key) :
    readSpec w scale (fileOf out format key) = (w.file (fileOf out format key)).map (fun x => ⟨x.samples.map (fun v => v * scale), x.fs⟩) := by
  obtain ⟨hf0, hf⟩ := fmt_chars ho.fmt
  have hfile : fileOf out format key = (out ++ ['/']) ++ (key.map (fun ch => if ch = '/' then '-' else ch) ++ '.' :: format) := by
    simp [fileOf]
  have hhead : ∀ c ∈ (fileOf out format key).head?, isSpace c = false := by
    intro c hc
    rw [hfile] at hc
    cases hout : out with
    | nil =>
      rw [hout] at hc
      simp at hc
      subst hc; decide
    | cons d l =>
      rw [hout] at hc
      apply ho.start
      rw [hout]
      simpa using hc
  have hlast : ∃ c, (fileOf out format key).getLast? = some c ∧ c ∈ format := by
    obtain ⟨l, hl⟩ := Option.ne_none_iff_exists'.1 (fun hh => hf0 (List.getLast?_eq_none_iff.1 hh))
    refine ⟨l, ?_, List.mem_of_getLast? hl⟩
    rw [hfile, List.getLast?_append, List.getLast?_append, List.getLast?_cons, hl]
    rfl
  obtain ⟨c, hc, hcf⟩ := hlast
  have hfc := hf c hcf
  have hstrip : strip (fileOf out format key) = fileOf out format key := by
    have := strip_eq (a := []) (b := []) (t := fileOf out format key) (by simp) (by simp) hhead (by
      intro d hd
      rw [hc] at hd
      simp at hd
      subst hd
      exact hfc.2.2.2.2.2.2.2)
    simpa using this
  have hext : splitExt (fileOf out format key) = '.' :: format := by
    rw [hfile]
    refine splitExt_eq (Or.inr (by simp)) (dash_slash key) (fun h => (hf _ h).2.2.2.2.1 rfl) (fun h => (hf _ h).2.2.2.2.2.1 rfl) ?_
    obtain ⟨d, hd, hne⟩ := hk.dots
    refine ⟨_, List.mem_map.2 ⟨d, hd, rfl⟩, ?_⟩
    split
    · decide
    · exact hne
  unfold readSpec
  rw [hstrip, hc]
  dsimp only
  rw [if_neg hfc.2.2.2.2.2.2.1, hext, if_pos ((validExt_iff format).2 ho.fmt)]
  rfl

/-- the script of written records, as the loader sees it. -/
theorem load_written {out format : Str} (ho : OutOk out format) (keys : List Str) (hne : keys ≠ []) (hk : ∀ k ∈ keys, KeyOk k) :
    ∃ x, Scp.load ' ' ':' (keys.flatMap (fun k => k ++ [' '] ++ fileOf out format k ++ ['\n'])) = some x ∧
      x.entries = keys.map (fun k => (k, fileOf out format k, none, none)) := by
  obtain ⟨hf0, hf⟩ := fmt_chars ho.fmt
  have hline : keys.flatMap (fun k => k ++ [' '] ++ fileOf out format k ++ ['\n']) =
      (keys.map (fun k => (⟨k, fileOf out format k, none, (0, 0)⟩ : Scp.Row))).flatMap (fun e => e.line ' ' ':' ++ ['\n']) := by
    rw [List.flatMap_map]
    congr 1
    funext k
    have : Scp.rangeStr (0, 0) = [] := by decide
    simp [Scp.Row.line, Scp.Row.script, Scp.Row.base, this]
  have hchar : ∀ k ∈ keys, ∀ c ∈ fileOf out format k, c ≠ ':' ∧ c ≠ '[' ∧ c ≠ '\n' ∧ c ≠ '\r' := by
    intro k hkm c hc
    unfold fileOf at hc
    simp only [List.mem_append, List.mem_singleton] at hc
    rcases hc with (((hc | rfl) | hc) | rfl) | hc
    · exact ho.chars c hc
    · decide
    · rcases dash_mem hc with rfl | hc
      · decide
      · have h := hk k hkm
        refine ⟨fun e => h.colon (e ▸ hc), fun e => h.bracket (e ▸ hc), fun e => ?_, fun e => ?_⟩
        · exact token_not h.token (c := '\n') (by decide) (e ▸ hc)
        · exact token_not h.token (c := '\r') (by decide) (e ▸ hc)
    · decide
    · have := hf c hc
      exact ⟨this.1, this.2.1, this.2.2.1, this.2.2.2.1⟩
  have hload := Scp.load_rows (sep := ' ') (offSep := ':') (rows := keys.map (fun k => (⟨k, fileOf out format k, none, (0, 0)⟩ : Scp.Row)))
    (by simpa using hne) (by
      intro e he
      obtain ⟨k, hkm, rfl⟩ := List.mem_map.1 he
      have h := hk k hkm
      refine ⟨⟨?_, ?_, ?_⟩, ⟨?_, ?_, ?_, ?_, ?_, ?_⟩, by simp, by decide⟩
      · exact token_not h.token (by decide)
      · exact token_not h.token (by decide)
      · exact token_not h.token (by decide)
      · exact fun hm => (hchar k hkm _ hm).2.1 rfl
      · exact fun hm => (hchar k hkm _ hm).1 rfl
      · exact fun hm => (hchar k hkm _ hm).2.2.1 rfl
      · exact fun hm => (hchar k hkm _ hm).2.2.2 rfl
      · simp [fileOf]
      · intro c hc
        obtain ⟨l, hl⟩ := Option.ne_none_iff_exists'.1 (fun hh => hf0 (List.getLast?_eq_none_iff.1 hh))
        have hc' : c ∈ (fileOf out format k).getLast? := hc
        unfold fileOf at hc'
        rw [List.getLast?_append, hl] at hc'
        simp at hc'
        subst hc'
        exact (hf _ (List.mem_of_getLast? hl)).2.2.2.2.2.2.2) (Or.inl (by simp))
  rw [hline, hload]
  have hall : ∀ e ∈ keys.map (fun k => (⟨k, fileOf out format k, none, (0, 0)⟩ : Scp.Row)), e.o = none := by simp
  have hall2 : ∀ e ∈ keys.map (fun k => (⟨k, fileOf out format k, none, (0, 0)⟩ : Scp.Row)), e.r = (0, 0) := by simp
  rw [if_pos hall, if_pos hall2]
  simp only [List.map_map]
  refine ⟨⟨keys.map ((fun e => e.k) ∘ fun k => (⟨k, fileOf out format k, none, (0, 0)⟩ : Scp.Row)),
    keys.map ((fun e => e.p) ∘ fun k => (⟨k, fileOf out format k, none, (0, 0)⟩ : Scp.Row)), none, none, none⟩, ?_, ?_⟩
  · rw [Scp.create_iff]
    simp
  · unfold Scp.Scp.entries Scp.col
    simp only [List.length_map, Function.comp_def, List.map_id']
    clear hload hall hall2 hchar hline hk hne
    induction keys with
    | nil => rfl
    | cons k keys ih =>
      simp only [List.length_cons, List.replicate_succ, List.map_cons, List.zip_cons_cons, ih]

/-- **C133 (round trip).** Write any recordings whose keys are tokens without `:` and `[`, not only dots, and different after replacing `/` by `-`, in any number of successful calls, to a
directory whose name has no `:`, `[` or line break and does not start with white space, with a script; then a sequential reader of the script gives the same keys, in the order
written, each with the signal that libsndfile gives back for it, times the scale of the reader. -/
theorem C133_round_trip (c : Codec K) (g : WCfg) (ho : OutOk g.out g.format) (hs : g.script = true) (hsep : g.sep = [' ']) (dtype : Str)
    (hd : npDtype.lookup g.subtype = some dtype) (disk : Str → Option (Wave K)) (pipe : Str → Int × Option (Wave K))
    (calls : List (List (Str × Wave K × Wave K)))
    (hstore : ∀ l ∈ calls, ∀ r ∈ l, KeyOk r.1 ∧ c.store g.format g.subtype dtype r.2.1 = some r.2.2)
    (hdiff : (calls.flatten.map (fun r => r.1.map (fun ch => if ch = '/' then '-' else ch))).Nodup) (hne : calls.flatten ≠ []) (scale : K) :
    ∃ st, st = runCalls c g ⟨disk, []⟩ (calls.map (fun l => (l.map (fun r => r.1), l.map (fun r => r.2.1.samples), Fs.list (l.map (fun r => r.2.1.fs))))) ∧
      ((openSeq st.script none scale 1 1).bind (fun r => r.iter ⟨st.disk, pipe⟩ r.fuel)).map (fun p => p.1) =
        some (calls.flatten.map (fun r => (r.1, ⟨r.2.2.samples.map (fun v => v * scale), r.2.2.fs⟩))) := by
  refine ⟨_, rfl, ?_⟩
  have hcall : ∀ l ∈ calls, ∀ st, (write c g st (l.map (fun r => r.1)) (l.map (fun r => r.2.1.samples)) (Fs.list (l.map (fun r => r.2.1.fs)))).1 =
      putAll (fileOf g.out g.format) (lineOf g.out g.format g.sep) g.script st (l.map (fun r => (r.1, r.2.2))) := by
    intro l hl st
    unfold write
    rw [hd]
    dsimp only
    rw [writeAll_eq]
    have hrec : (records (l.map (fun r => r.1)) (l.map (fun r => r.2.1.samples)) (Fs.list (l.map (fun r => r.2.1.fs)))).map (storedRec c g dtype) =
        (l.map (fun r => (r.1, r.2.2))).map some := by
      unfold records
      apply List.ext_getElem
      · simp
      · intro i h1 h2
        have hi : i < l.length := by simpa using h2
        have hmem := hstore l hl l[i] (List.getElem_mem hi)
        simp only [List.getElem_map, List.getElem_zipIdx, List.getElem?_map, Nat.zero_add, List.getElem?_eq_getElem hi, Fs.get, Option.map_some, Option.bind_some,
          storedRec, hmem.1.token, if_true]
        have : (⟨l[i].2.1.samples, l[i].2.1.fs⟩ : Wave K) = l[i].2.1 := rfl
        rw [this, hmem.2]
        rfl
    have htw : ∀ d : List (Str × Wave K), ((d.map some).takeWhile Option.isSome).filterMap id = d := by
      intro d
      induction d with
      | nil => rfl
      | cons a d ih => rw [List.map_cons, List.takeWhile_cons, Option.isSome_some, if_pos rfl, List.filterMap_cons, ih]; rfl
    rw [hrec, htw]
  have hrun : runCalls c g ⟨disk, []⟩ (calls.map (fun l => (l.map (fun r => r.1), l.map (fun r => r.2.1.samples), Fs.list (l.map (fun r => r.2.1.fs))))) =
      putAll (fileOf g.out g.format) (lineOf g.out g.format g.sep) g.script ⟨disk, []⟩ (calls.flatten.map (fun r => (r.1, r.2.2))) := by
    clear hdiff hne hstore
    induction calls using List.reverseRecOn with
    | nil => exact (putAll_nil _ _ _ _).symm
    | append_singleton calls l ih =>
      have ih := ih (fun m hm => hcall m (by simp [hm]))
      unfold runCalls at ih ⊢
      rw [List.map_append, List.foldl_append, ih, List.map_singleton, List.foldl_cons, List.foldl_nil]
      dsimp only
      rw [hcall l (by simp), putAll_append]
      simp
  rw [hrun]
  have hkeys : ∀ k ∈ calls.flatten.map (fun r => r.1), KeyOk k := by
    intro k hk
    obtain ⟨r, hr, rfl⟩ := List.mem_map.1 hk
    obtain ⟨l, hl, hrl⟩ := List.mem_flatten.1 hr
    exact (hstore l hl r hrl).1
  obtain ⟨x, hx, hent⟩ := load_written ho (calls.flatten.map (fun r => r.1)) (by simpa using hne) hkeys
  have hscript : (putAll (fileOf g.out g.format) (lineOf g.out g.format g.sep) g.script (⟨disk, []⟩ : WState K) (calls.flatten.map (fun r => (r.1, r.2.2)))).script =
      (calls.flatten.map (fun r => r.1)).flatMap (fun k => k ++ [' '] ++ fileOf g.out g.format k ++ ['\n']) := by
    unfold putAll lineOf
    simp only [hs, if_true, List.nil_append, hsep, List.flatMap_map]
  rw [hscript, C129_iteration _ _ x hx, hent]
  rw [mapM_eq_some_iff, List.map_map, List.map_map, List.map_map]
  apply List.map_congr_left
  intro r hr
  simp only [Function.comp]
  rw [readSpec_written _ scale ho (hkeys r.1 (List.mem_map.2 ⟨r, hr, rfl⟩))]
  have hdisk : (putAll (fileOf g.out g.format) (lineOf g.out g.format g.sep) g.script (⟨disk, []⟩ : WState K) (calls.flatten.map (fun r => (r.1, r.2.2)))).disk
      (fileOf g.out g.format r.1) = some r.2.2 := by
    unfold putAll
    dsimp only
    have hfil : (calls.flatten.map (fun r => (r.1, r.2.2))).filter (fun q => fileOf g.out g.format q.1 == fileOf g.out g.format r.1) = [(r.1, r.2.2)] := by
      have hinj : ∀ a b : Str, fileOf g.out g.format a = fileOf g.out g.format b ↔
          a.map (fun ch => if ch = '/' then '-' else ch) = b.map (fun ch => if ch = '/' then '-' else ch) := by
        intro a b
        unfold fileOf
        constructor
        · intro h
          have h1 := List.append_cancel_right h
          have h2 := List.append_cancel_right h1
          exact List.append_cancel_left h2
        · intro h; rw [h]
      clear hrun hcall hscript hent hx hkeys hne hstore
      generalize calls.flatten = l at *
      induction l with
      | nil => cases hr
      | cons a l ih =>
        rw [List.map_cons, List.nodup_cons] at hdiff
        rw [List.map_cons, List.filter_cons]
        rcases List.mem_cons.1 hr with h | h
        · subst h
          rw [if_pos (by simp)]
          congr 1
          rw [List.filter_eq_nil_iff]
          intro q hq he
          obtain ⟨b, hb, rfl⟩ := List.mem_map.1 hq
          simp only [beq_iff_eq, hinj] at he
          exact hdiff.1 (List.mem_map.2 ⟨b, hb, he⟩)
        · rw [if_neg]
          · exact ih hdiff.2 h
          · intro he
            simp only [beq_iff_eq, hinj] at he
            exact hdiff.1 (List.mem_map.2 ⟨r, h, he.symm⟩)
    rw [hfil]
    rfl
  simp only [hdisk, Option.map_some]

/-- 16 bit samples: `astype('int16')` truncates a value in range, `sf.read` gives it back divided by 2^15 (a value out of range: not modelled). -/
def pcm16 (v : K) : Option K := if -32769 < v ∧ v < 32768 then some ((toInt v : K) / 32768) else none

/-- **C133 (16 bit).** With the default scale 2^15, samples that are integers in the 16 bit range are read back exactly as they were given to the writer. -/
theorem C133_pcm16_exact (x : List K) (hx : ∀ v ∈ x, ∃ z : ℤ, v = (z : K) ∧ -32768 ≤ z ∧ z ≤ 32767) :
    ∃ y, x.mapM (fun v => pcm16 v) = some y ∧ y.map (fun v => v * (2 ^ 15 : K)) = x := by
  induction x with
  | nil => exact ⟨[], rfl, rfl⟩
  | cons v x ih =>
    obtain ⟨y, h1, h2⟩ := ih (fun v hv => hx v (by simp [hv]))
    obtain ⟨z, rfl, h3, h4⟩ := hx v (by simp)
    have hz : pcm16 (z : K) = some ((z : K) / 32768) := by
      unfold pcm16
      rw [if_pos]
      · congr 2
        unfold toInt
        by_cases h : (0 : K) ≤ (z : K)
        · rw [if_pos h, Int.floor_intCast]
        · rw [if_neg h, Int.ceil_intCast]
      · constructor
        · have : (-32769 : ℤ) < z := by omega
          exact_mod_cast this
        · have : z < (32768 : ℤ) := by omega
          exact_mod_cast this
    refine ⟨(z : K) / 32768 :: y, ?_, ?_⟩
    · rw [List.mapM_cons, hz, h1]; rfl
    · rw [List.map_cons, h2]
      congr 1
      norm_num

/-- **C133 (16 bit, other samples).** Any sample in range comes back truncated towards zero: less than one unit away. -/
theorem C133_pcm16_error (v y : K) (h : pcm16 v = some y) : |y * 2 ^ 15 - v| < 1 ∧ |y * 2 ^ 15| ≤ |v| := by
  unfold pcm16 at h
  split at h
  · obtain rfl := Option.some.inj h
    have e : (toInt v : K) / 32768 * 2 ^ 15 = (toInt v : K) := by
      norm_num
    rw [e]
    unfold toInt
    by_cases h0 : 0 ≤ v
    · rw [if_pos h0]
      have h1 := Int.floor_le v
      have h2 := Int.lt_floor_add_one v
      have h3 : (0 : K) ≤ (⌊v⌋ : K) := by exact_mod_cast Int.floor_nonneg.2 h0
      rw [abs_lt, abs_of_nonneg h3, abs_of_nonneg h0]
      exact ⟨⟨by linarith, by linarith⟩, h1⟩
    · rw [if_neg h0]
      push Not at h0
      have h1 := Int.le_ceil v
      have h2 := Int.ceil_lt_add_one v
      have h3 : (⌈v⌉ : K) ≤ 0 := by exact_mod_cast Int.ceil_le.2 (by simpa using h0.le)
      rw [abs_lt, abs_of_nonpos h3, abs_of_neg h0]
      exact ⟨⟨by linarith, by linarith⟩, by linarith⟩
  · cases h

end Hyp.Audio
