import Verif.Copy.Props

/-! C123: copy-feats keeps the records. -/

namespace Hyp.Copy
open Hyp.Text Hyp.Kaldi Hyp.Spec

/-! ### opening the outputs -/

theorem rCreate_ark (fl : Str → Option Str) {a : Str} (h : Spec.PathOk a) :
    rCreate fl ("ark:".toList ++ a) = some ⟨.archive, a, .ark, false, false, false, false, false⟩ := by
  exact (C28_read_spec_partial fl [.ark] a (by simp) h).trans rfl

theorem rCreate_h5 (fl : Str → Option Str) {a : Str} (h : Spec.PathOk a) :
    rCreate fl ("h5:".toList ++ a) = some ⟨.archive, a, .h5, false, false, false, false, false⟩ := by
  exact (C28_read_spec_partial fl [.h5] a (by simp) h).trans rfl

theorem rCreate_scp (fl : Str → Option Str) {q : Str} (h : Spec.PathOk q) {t : ArchiveType}
    (ht : scriptArchiveType fl q = some t) :
    rCreate fl ("scp:".toList ++ q) = some ⟨.script, q, t, false, false, false, false, false⟩ := by
  refine (C28_read_spec_partial fl [.scp] q (by simp) h).trans ?_
  show Option.map _ (Option.map _ (scriptArchiveType fl q)) = _
  rw [ht]
  cases t <;> rfl

/-- characters of a key: no blank of any kind. -/
theorem token_space {k : Str} (h : isToken k = true) : ∀ c ∈ k, isSpace c = false := by
  obtain ⟨_, h2, h3, _⟩ := isToken_writeToken h
  intro c hc
  obtain ⟨h4, h5⟩ := h3 c hc
  have h6 : c ≠ ' ' := fun e => h2 (e ▸ hc)
  have h7 : c.toNat ≠ 32 := by
    intro he
    apply h6
    have : c = Char.ofNat c.toNat := (Char.ofNat_toNat c).symm
    rw [this, he]
  simp only [isSpace, Bool.or_eq_false_iff, Bool.and_eq_false_iff, decide_eq_false_iff_not, beq_eq_false_iff_ne]
  omega

/-- the archive type found in the first line of a script. -/
theorem scriptType {fl : Str → Option Str} {q key a tail : Str} (hk : isToken key = true) (ha : ' ' ∉ a) (hb : '[' ∉ a)
    (hc : ':' ∉ a) (htail : tail = [] ∨ ∃ n, tail = ':' :: printNat n) (hne : a ≠ [])
    (hlast : ∀ c ∈ a.getLast?, isSpace c = false)
    (hl : fl q = some (key ++ ' ' :: (a ++ tail) ++ ['\n'])) :
    scriptArchiveType fl q = some (if tail = [] then .h5 else .ark) := by
  obtain ⟨hk1, hk2, hk3, _⟩ := isToken_writeToken hk
  have hd : ∀ n, ' ' ∉ printNat n := fun n => not_mem_printNat (by decide)
  have hd2 : ∀ n, '[' ∉ printNat n := fun n => not_mem_printNat (by decide)
  have hd3 : ∀ n, ':' ∉ printNat n := fun n => not_mem_printNat (by decide)
  have ht1 : ' ' ∉ tail := by rcases htail with rfl | ⟨n, rfl⟩ <;> simp [hd]
  have ht2 : '[' ∉ tail := by rcases htail with rfl | ⟨n, rfl⟩ <;> simp [hd2]
  have hlast' : ∀ c ∈ (a ++ tail).getLast?, isSpace c = false := by
    rcases htail with rfl | ⟨n, rfl⟩
    · simpa using hlast
    · intro c hc
      have hm : c ∈ printNat n ∨ c = ':' := by
        have := List.mem_of_getLast? hc
        rw [List.getLast?_append] at hc
        have hne : (':' :: printNat n).getLast? ≠ none := by simp
        rcases hx : (':' :: printNat n).getLast? with _ | y
        · exact absurd hx hne
        · rw [hx] at hc
          simp at hc
          subst hc
          have := List.mem_of_getLast? hx
          simp at this
          rcases this with h | h
          · exact Or.inr h
          · exact Or.inl h
      rcases hm with hm | rfl
      · obtain ⟨d, hd, rfl⟩ := mem_printNat hm
        interval_cases d <;> decide
      · decide
  have hstrip : strip (key ++ ' ' :: (a ++ tail) ++ ['\n']) = key ++ ' ' :: (a ++ tail) := by
    unfold strip
    rw [rstrip_append (by intro c hc; simp at hc; subst hc; decide), ← strip, strip_id]
    · intro c hc
      cases key with
      | nil => exact absurd rfl hk1
      | cons x xs => simp at hc; subst hc; exact token_space hk x (by simp)
    · intro c hc
      apply hlast' c
      have hne2 : a ++ tail ≠ [] := by simp [hne]
      rw [List.getLast?_append] at hc
      rcases hx : (a ++ tail).getLast? with _ | y
      · exact absurd (List.getLast?_eq_none_iff.1 hx) hne2
      · have : (' ' :: (a ++ tail)).getLast? = some y := by
          rw [List.getLast?_cons, hx]; rfl
        rw [this] at hc
        simpa using hc
  unfold scriptArchiveType
  simp only [Option.bind_eq_bind, hl, Option.bind_some, hstrip]
  rw [splitAll_append hk2, splitAll_noSep (by simp [ha, ht1] : ' ' ∉ a ++ tail)]
  simp only [List.getElem?_cons_succ, List.getElem?_cons_zero, Option.bind_some]
  rw [splitAll_noSep (by simp [hb, ht2] : '[' ∉ a ++ tail)]
  simp only [List.getElem?_cons_zero, Option.bind_some]
  rcases htail with rfl | ⟨n, rfl⟩
  · rw [List.append_nil, splitAll_noSep hc]; rfl
  · rw [splitAll_append hc, splitAll_noSep (hd3 n)]; rfl

/-- first line of a text made of lines. -/
theorem firstLine_of {d : Disk} {q l : Str} {ls : List Str} (h : d.txt q = some ((l :: ls).flatMap (fun x => x ++ ['\n'])))
    (hn : ∀ x ∈ l :: ls, '\n' ∉ x ∧ '\r' ∉ x) : d.firstLine q = some (l ++ ['\n']) := by
  unfold Disk.firstLine
  rw [h, Option.map_some, fileLines_join hn]
  rfl

theorem token_newline {k : Str} (h : isToken k = true) : '\n' ∉ k ∧ '\r' ∉ k := by
  obtain ⟨_, _, h3, _⟩ := isToken_writeToken h
  exact ⟨fun hc => by have := h3 _ hc; revert this; decide, fun hc => by have := h3 _ hc; revert this; decide⟩

/-- the first line of a script written with an ark archive. -/
theorem ark_script_type {d : Disk} {q a : Str} {items : List (Str × KMat × Nd)} {offs : List Nat} (hne : items ≠ [])
    (hl : offs.length = items.length) (hk : ∀ it ∈ items, isToken it.1 = true) (ha : Kaldi.PathOk ' ' a) (hb : ' ' ∉ a)
    (h : d.txt q = some ((items.zip offs).flatMap (fun p => Kaldi.scriptLine ' ' a p.1.1 p.2))) :
    scriptArchiveType d.firstLine q = some .ark := by
  have hd : ∀ n c, digitVal c = none → c ∉ printNat n := fun n c hc => not_mem_printNat hc
  have heq : (items.zip offs).flatMap (fun p => Kaldi.scriptLine ' ' a p.1.1 p.2) =
      ((items.zip offs).map (fun p => p.1.1 ++ ' ' :: (a ++ ':' :: printNat p.2))).flatMap (fun x => x ++ ['\n']) := by
    rw [List.flatMap_map]
    congr 1
    funext p
    simp [Kaldi.scriptLine]
  obtain ⟨it, its, rfl⟩ := List.exists_cons_of_ne_nil hne
  cases offs with
  | nil => simp at hl
  | cons o os =>
    rw [heq, List.zip_cons_cons, List.map_cons] at h
    have hfl := firstLine_of h (by
      intro x hx
      have hx : x ∈ (((it :: its).zip (o :: os)).map (fun p => p.1.1 ++ ' ' :: (a ++ ':' :: printNat p.2))) := by
        rw [List.zip_cons_cons, List.map_cons]; exact hx
      obtain ⟨p, hp, rfl⟩ := List.mem_map.1 hx
      have hm := List.of_mem_zip hp
      have h1 := token_newline (hk _ hm.1)
      obtain ⟨_, _, h4, h5, _, _⟩ := ha.path
      have h6 := hd p.2 '\n' (by decide)
      have h7 := hd p.2 '\r' (by decide)
      simp [h1.1, h1.2, h4, h5, h6, h7])
    have := scriptType (fl := d.firstLine) (q := q) (key := it.1) (a := a) (tail := ':' :: printNat o) (hk it (by simp)) hb
      ha.path.1 ha.path.2.1 (Or.inr ⟨o, rfl⟩) ha.path.2.2.2.2.1 ha.path.2.2.2.2.2 hfl
    simpa using this

/-- the first line of a script written with an HDF5 archive. -/
theorem h5_script_type {d : Disk} {q a : Str} {items : List (Str × KMat × Nd)} (hne : items ≠ [])
    (hk : ∀ it ∈ items, isToken it.1 = true) (ha : Kaldi.PathOk ' ' a) (hb : ' ' ∉ a)
    (h : d.txt q = some (items.flatMap (fun it => H5.scriptLine ' ' a it.1))) :
    scriptArchiveType d.firstLine q = some .h5 := by
  have heq : items.flatMap (fun it => H5.scriptLine ' ' a it.1) =
      (items.map (fun it => it.1 ++ ' ' :: (a ++ []))).flatMap (fun x => x ++ ['\n']) := by
    rw [List.flatMap_map]
    congr 1
    funext p
    simp [H5.scriptLine]
  obtain ⟨it, its, rfl⟩ := List.exists_cons_of_ne_nil hne
  rw [heq, List.map_cons] at h
  have hfl := firstLine_of h (by
    intro x hx
    have hx : x ∈ (it :: its).map (fun it => it.1 ++ ' ' :: (a ++ [])) := by rw [List.map_cons]; exact hx
    obtain ⟨p, hp, rfl⟩ := List.mem_map.1 hx
    have h1 := token_newline (hk _ hp)
    obtain ⟨_, _, h4, h5, _, _⟩ := ha.path
    simp [h1.1, h1.2, h4, h5])
  have := scriptType (fl := d.firstLine) (q := q) (key := it.1) (a := a) (tail := []) (hk it (by simp)) hb
    ha.path.1 ha.path.2.1 (Or.inl rfl) ha.path.2.2.2.2.1 ha.path.2.2.2.2.2 hfl
  simpa using this

theorem bin_of {d : Disk} {p : Str} {b : Bytes} (h : d p = some (.bin b)) : d.bin p = some b := by simp [Disk.bin, h]
theorem hdf_of {d : Disk} {p : Str} {b : H5.File} (h : d p = some (.hdf b)) : d.hdf p = some b := by simp [Disk.hdf, h]
theorem txt_of {d : Disk} {p : Str} {b : Str} (h : d p = some (.txt b)) : d.txt p = some b := by simp [Disk.txt, h]

theorem take_slice (l : List (Str × Nd)) :
    (l.take (if 0 = 0 then l.length else 0)).map (fun it => (it.1, id (it.2.slice 0 0))) = l := by
  simp [Nd.slice_zero]

/-! ## C123 -/

/-- Copying any mixture of readable inputs (HDF5 or ark archives, script files) into an ark archive: it does not
raise; the files other than the outputs do not change; the new archive, read through its specifier, gives the
records of all the inputs in the order of the inputs, each array as the writer converts it (`val`) - whatever the
chunk size; and so does the new script file. -/
theorem C123_copy_to_ark (e : Env) (d : Disk) (ro : ROpts) (o : WOpts) (inputs : List Str) (blocks : List (List (Str × Nd)))
    (output : Str) (s : WSpecifier) (a : Str) (chunk : Nat) (val : Nd → Nd)
    (hs : wCreate output = some s) (ha : s.archive = some a) (hty : s.specType ≠ .script)
    (hark : s.archiveType = some .ark) (hbin : s.binary = true)
    (hdir : '/' ∈ a) (hscr : ∀ q ∈ s.script, '/' ∈ q ∧ q ≠ a) (hpath : Spec.PathOk a)
    (hin : List.Forall₂ (Readable e (without d (a :: s.script.toList)) ro) inputs blocks)
    (hp : ro.parts ≤ 1 ∨ inputs.length ≤ 1)
    (hk : ∀ it ∈ blocks.flatten, isToken it.1 = true)
    (hconv : ∀ it ∈ blocks.flatten, ∃ km, o.conv it.2 = some km ∧ km.Value e.D (val it.2)) :
    ∃ d', copyFeats e d ro o inputs output chunk = some d' ∧
      (∀ p, p ≠ a → s.script ≠ some p → d' p = d p) ∧
      (∀ pk, Readable ⟨pk, e.D⟩ d' plainOpts ("ark:".toList ++ a) (blocks.flatten.map (fun it => (it.1, val it.2)))) ∧
      (∀ q, s.script = some q → Spec.PathOk q → o.sep = ' ' → Kaldi.PathOk ' ' a → ' ' ∉ a → blocks.flatten ≠ [] →
        ∀ pk, Readable ⟨pk, e.D⟩ d' plainOpts ("scp:".toList ++ q) (blocks.flatten.map (fun it => (it.1, val it.2)))) := by
  classical
  have hin' : List.Forall₂ (Readable e (without d (outputs s)) ro) inputs blocks := by
    unfold outputs; rw [ha]; exact hin
  have hcf := copyFeats_eq hs ha hty hdir (fun q hq => (hscr q hq).1) (Or.inr hbin) hin' hp o chunk
  have hif : (if s.archiveType = some .h5 then Wr.h5 (H5.Writer.new s.script.isSome) else Wr.ark ⟨[], []⟩) = Wr.ark ⟨[], []⟩ := by
    rw [hark]; rfl
  rw [hif] at hcf
  let km : Nd → KMat := fun v => (o.conv v).getD (.plain v)
  have hkm : ∀ it ∈ blocks.flatten, o.conv it.2 = some (km it.2) ∧ (km it.2).Value e.D (val it.2) := by
    intro it hit
    obtain ⟨m, h1, h2⟩ := hconv it hit
    have : km it.2 = m := by simp [km, h1]
    rw [this]; exact ⟨h1, h2⟩
  rw [write_ark o a _ km (fun it hit => (hkm it hit).1)] at hcf
  let items : List (Str × KMat × Nd) := blocks.flatten.map (fun it => (it.1, km it.2, val it.2))
  have hm1 : blocks.flatten.map (fun it => (it.1, km it.2)) = items.map (fun it => (it.1, it.2.1)) := by
    simp only [items, List.map_map]; rfl
  have hm2 : blocks.flatten.map (fun it => (it.1, val it.2)) = items.map (fun it => (it.1, it.2.2)) := by
    simp only [items, List.map_map]; rfl
  have hk' : ∀ it ∈ items, isToken it.1 = true := by
    intro it hit; obtain ⟨x, hx, rfl⟩ := List.mem_map.1 hit; exact hk x hx
  have hv' : ∀ it ∈ items, it.2.1.Value e.D it.2.2 := by
    intro it hit; obtain ⟨x, hx, rfl⟩ := List.mem_map.1 hit; exact (hkm x hx).2
  obtain ⟨w, bs, offs, hw, hwa, henc, hws, hat⟩ := write_spec o.sep a items hk' hv' ⟨[], []⟩
  rw [hm1, hw] at hcf
  have hda : ∀ d1 : Disk, Wr.close d1 a s.script (.ark w) a = some (.bin bs) := by
    intro d1
    show ((d1.set a (some (.bin w.ark))).setScript s.script w.script) a = _
    rw [setScript_of_ne, set_self, hwa]
    · rfl
    · rcases hx : s.script with _ | q
      · simp
      · have := (hscr q hx).2; simp; exact fun h => this h.symm
  refine ⟨Wr.close (created d s a) a s.script (.ark w), by rw [hcf]; rfl, ?_, ?_, ?_⟩
  · intro p hpa hps
    have hns : p ∉ s.script.toList := by
      rcases hx : s.script with _ | q
      · simp
      · rw [hx] at hps; simp at hps ⊢; exact fun h => hps h.symm
    show ((created d s a).set a (some (.bin w.ark))).setScript s.script w.script p = d p
    rw [setScript_of_ne hns, set_of_ne hpa, created_of_ne hpa hns]
  · intro pk
    rw [hm2]
    refine ⟨.arkFile (ArkReader.open bs), ?_⟩
    have hopen : openSeqStr (Wr.close (created d s a) a s.script (.ark w)) plainOpts ("ark:".toList ++ a) =
        some (.arkFile (ArkReader.open bs)) := by
      unfold openSeqStr
      rw [rCreate_ark _ hpath, Option.bind_some]
      show (if 1 < 1 then none else ((Wr.close (created d s a) a s.script (.ark w)).bin a).map _) = _
      rw [if_neg (by omega), bin_of (hda _)]
      rfl
    obtain ⟨r', h1, _, _, _⟩ := ArkReader.read_enc (r := ArkReader.open bs) henc pk id 0 0 0 (fun it _ => Nd.rangeOk_zero _)
    refine ⟨.arkFile r', hopen, ?_, ⟨_, henc⟩⟩
    simp only [Rd.read]
    rw [h1, take_slice]
    rfl
  · intro q hq hqp hsep hap hblank hne pk
    rw [hm2]
    have hne' : items ≠ [] := by simpa [items] using hne
    rw [hsep] at hw hws
    have hsp : ∀ it ∈ items, ' ' ∉ it.1 := fun it hit => (isToken_writeToken (hk' it hit)).2.1
    obtain ⟨w2, x, hw2, hload, hread⟩ := C22_script_sequential e.D ' ' a hap items hne' hk' hsp hv'
    obtain rfl : w = w2 := Option.some.inj (hw.symm.trans hw2)
    have hdq : Wr.close (created d s a) a s.script (.ark w) q = some (.txt w.script) := by
      show ((created d s a).set a (some (.bin w.ark))).setScript s.script w.script q = _
      rw [hq]
      exact set_self
    have hty : scriptArchiveType (Disk.firstLine (Wr.close (created d s a) a s.script (.ark w))) q = some .ark := by
      refine ark_script_type hne' hat.length_eq.symm hk' hap hblank ?_
      rw [txt_of hdq, hws]; rfl
    obtain ⟨r', h1, _⟩ := hread pk (Disk.bin (Wr.close (created d s a) a s.script (.ark w))) 0 0
      (by rw [bin_of (hda _), hwa]; rfl) (fun it _ => Nd.rangeOk_zero _)
    refine ⟨.arkScp ⟨x, 0, none⟩, .arkScp r', ?_, ?_, trivial⟩
    · unfold openSeqStr
      rw [rCreate_scp _ hqp hty, Option.bind_some]
      show ((Disk.txt (Wr.close (created d s a) a s.script (.ark w)) q).bind (Scp.load ' ' ':')).bind _ = _
      rw [txt_of hdq, Option.bind_some, hload]
      rfl
    · simp only [Rd.read]
      rw [h1]
      simp only [Nd.slice_zero]
      rfl

end Hyp.Copy
