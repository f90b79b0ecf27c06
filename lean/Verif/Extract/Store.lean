import Verif.Extract.Lemmas

/-! Lemmas for C168: the outputs. -/

namespace Hyp.Extract
open Hyp.Text Hyp.Kaldi Hyp.Spec Hyp.Copy

/-! ### the outputs -/

/-- the disk after the rows were stored. -/
def finish : Option Disk → Outcome
  | none => .broken
  | some d => .done d

theorem store_eq (d : Disk) {output : Str} {s : WSpecifier} {a : Str}
    (hs : wCreate output = some s) (ha : s.archive = some a) (hty : s.specType ≠ .script)
    (hdir : '/' ∈ a) (hscr : ∀ q ∈ s.script, '/' ∈ q) (hbin : s.archiveType = some .h5 ∨ s.binary = true)
    (o : WOpts) (l : List (Str × Nd)) :
    store d o output l = finish
      (((if s.archiveType = some .h5 then Wr.h5 (H5.Writer.new s.script.isSome) else Wr.ark ⟨[], []⟩).write o a l).map
        (Wr.close (created d s a) a s.script)) := by
  have hsc : scriptOk s.script = true := by
    rcases hx : s.script with _ | q
    · rfl
    · simp only [scriptOk, dirOk, List.contains_iff_mem]; exact hscr q hx
  have hdo : dirOk a = true := by simpa [dirOk] using hdir
  have how : openWriter d s = some (if s.archiveType = some .h5 then Wr.h5 (H5.Writer.new s.script.isSome) else Wr.ark ⟨[], []⟩,
      created d s a) := by
    have h1 : openWriter d s = openArchiveWriter d s a := by
      unfold openWriter
      rw [ha]
      rcases hh : s.specType with _ | _ | _
      · rfl
      · exact absurd hh hty
      · rfl
    rw [h1]
    unfold openArchiveWriter created
    rw [hdo, hsc]
    simp only [Bool.and_self, if_true]
    rcases hh : s.archiveType with _ | _ | _
    · rcases hbin with hb | hb
      · rw [hh] at hb; simp at hb
      · simp [hb]
    · simp
    · rcases hbin with hb | hb
      · rw [hh] at hb; simp at hb
      · simp [hb]
  unfold store
  rw [hs]
  simp only [how, Option.bind_some, ha, Option.getD_some]
  rcases (if s.archiveType = some .h5 then Wr.h5 (H5.Writer.new s.script.isSome) else Wr.ark ⟨[], []⟩).write o a l with _ | w <;> rfl

/-- storing the rows `l` in an ark archive. -/
theorem store_ark (D : Decoder) (d : Disk) (o : WOpts) (l : List (Str × Nd))
    (output : Str) (s : WSpecifier) (a : Str) (val : Nd → Nd)
    (hs : wCreate output = some s) (ha : s.archive = some a) (hty : s.specType ≠ .script)
    (hark : s.archiveType = some .ark) (hbin : s.binary = true)
    (hdir : '/' ∈ a) (hscr : ∀ q ∈ s.script, '/' ∈ q ∧ q ≠ a) (hpath : Spec.PathOk a)
    (hk : ∀ it ∈ l, isToken it.1 = true)
    (hconv : ∀ it ∈ l, ∃ km, o.conv it.2 = some km ∧ km.Value D (val it.2)) :
    ∃ d', store d o output l = .done d' ∧
      (∀ p, p ≠ a → s.script ≠ some p → d' p = d p) ∧
      (∀ pk, Readable ⟨pk, D⟩ d' plainOpts ("ark:".toList ++ a) (l.map (fun it => (it.1, val it.2)))) ∧
      (∀ q, s.script = some q → Spec.PathOk q → o.sep = ' ' → Kaldi.PathOk ' ' a → ' ' ∉ a → l ≠ [] →
        ∀ pk, Readable ⟨pk, D⟩ d' plainOpts ("scp:".toList ++ q) (l.map (fun it => (it.1, val it.2)))) := by
  classical
  have hcf := store_eq d hs ha hty hdir (fun q hq => (hscr q hq).1) (Or.inr hbin) o l
  have hif : (if s.archiveType = some .h5 then Wr.h5 (H5.Writer.new s.script.isSome) else Wr.ark ⟨[], []⟩) = Wr.ark ⟨[], []⟩ := by
    rw [hark]; rfl
  rw [hif] at hcf
  let km : Nd → KMat := fun v => (o.conv v).getD (.plain v)
  have hkm : ∀ it ∈ l, o.conv it.2 = some (km it.2) ∧ (km it.2).Value D (val it.2) := by
    intro it hit
    obtain ⟨m, h1, h2⟩ := hconv it hit
    have : km it.2 = m := by simp [km, h1]
    rw [this]; exact ⟨h1, h2⟩
  rw [write_ark o a _ km (fun it hit => (hkm it hit).1)] at hcf
  let items : List (Str × KMat × Nd) := l.map (fun it => (it.1, km it.2, val it.2))
  have hm1 : l.map (fun it => (it.1, km it.2)) = items.map (fun it => (it.1, it.2.1)) := by
    simp only [items, List.map_map]; rfl
  have hm2 : l.map (fun it => (it.1, val it.2)) = items.map (fun it => (it.1, it.2.2)) := by
    simp only [items, List.map_map]; rfl
  have hk' : ∀ it ∈ items, isToken it.1 = true := by
    intro it hit; obtain ⟨x, hx, rfl⟩ := List.mem_map.1 hit; exact hk x hx
  have hv' : ∀ it ∈ items, it.2.1.Value D it.2.2 := by
    intro it hit; obtain ⟨x, hx, rfl⟩ := List.mem_map.1 hit; exact (hkm x hx).2
  obtain ⟨w, bs, offs, hw, hwa, henc, hws, hat⟩ := write_spec o.sep a items hk' hv' ⟨[], []⟩
  rw [hm1, hw] at hcf
  have hda : ∀ d1 : Disk, Wr.close d1 a s.script (.ark w) a = some (.bin bs) := by
    intro d1
    show ((d1.set a (some (.bin w.ark))).setScript s.script w.script) a = _
    rw [setScript_of_ne, set_self, hwa]
    · rfl
    · rcases hx : s.script with _ | q
      · simp
      · have := (hscr q hx).2; simp; exact fun h => this h.symm
  refine ⟨Wr.close (created d s a) a s.script (.ark w), by rw [hcf]; rfl, ?_, ?_, ?_⟩
  · intro p hpa hps
    have hns : p ∉ s.script.toList := by
      rcases hx : s.script with _ | q
      · simp
      · rw [hx] at hps; simp at hps ⊢; exact fun h => hps h.symm
    show ((created d s a).set a (some (.bin w.ark))).setScript s.script w.script p = d p
    rw [setScript_of_ne hns, set_of_ne hpa, created_of_ne hpa hns]
  · intro pk
    rw [hm2]
    refine ⟨.arkFile (ArkReader.open bs), ?_⟩
    have hopen : openSeqStr (Wr.close (created d s a) a s.script (.ark w)) plainOpts ("ark:".toList ++ a) =
        some (.arkFile (ArkReader.open bs)) := by
      unfold openSeqStr
      rw [rCreate_ark _ hpath, Option.bind_some]
      show (if 1 < 1 then none else ((Wr.close (created d s a) a s.script (.ark w)).bin a).map _) = _
      rw [if_neg (by omega), bin_of (hda _)]
      rfl
    obtain ⟨r', h1, _, _, _⟩ := ArkReader.read_enc (r := ArkReader.open bs) henc pk id 0 0 0 (fun it _ => Nd.rangeOk_zero _)
    refine ⟨.arkFile r', hopen, ?_, ⟨_, henc⟩⟩
    simp only [Rd.read]
    rw [h1, take_slice]
    rfl
  · intro q hq hqp hsep hap hblank hne pk
    rw [hm2]
    have hne' : items ≠ [] := by simpa [items] using hne
    rw [hsep] at hw hws
    have hsp : ∀ it ∈ items, ' ' ∉ it.1 := fun it hit => (isToken_writeToken (hk' it hit)).2.1
    obtain ⟨w2, x, hw2, hload, hread⟩ := C22_script_sequential D ' ' a hap items hne' hk' hsp hv'
    obtain rfl : w = w2 := Option.some.inj (hw.symm.trans hw2)
    have hdq : Wr.close (created d s a) a s.script (.ark w) q = some (.txt w.script) := by
      show ((created d s a).set a (some (.bin w.ark))).setScript s.script w.script q = _
      rw [hq]
      exact set_self
    have hty : scriptArchiveType (Disk.firstLine (Wr.close (created d s a) a s.script (.ark w))) q = some .ark := by
      refine ark_script_type hne' hat.length_eq.symm hk' hap hblank ?_
      rw [txt_of hdq, hws]; rfl
    obtain ⟨r', h1, _⟩ := hread pk (Disk.bin (Wr.close (created d s a) a s.script (.ark w))) 0 0
      (by rw [bin_of (hda _), hwa]; rfl) (fun it _ => Nd.rangeOk_zero _)
    refine ⟨.arkScp ⟨x, 0, none⟩, .arkScp r', ?_, ?_, trivial⟩
    · unfold openSeqStr
      rw [rCreate_scp _ hqp hty, Option.bind_some]
      show ((Disk.txt (Wr.close (created d s a) a s.script (.ark w)) q).bind (Scp.load ' ' ':')).bind _ = _
      rw [txt_of hdq, Option.bind_some, hload]
      rfl
    · simp only [Rd.read]
      rw [h1]
      simp only [Nd.slice_zero]
      rfl

/-- storing the rows `l`, with distinct keys, in an HDF5 archive. -/
theorem store_h5 (D : Decoder) (d : Disk) (o : WOpts) (l : List (Str × Nd))
    (output : Str) (s : WSpecifier) (a : Str) (val : Nd → Nd)
    (hs : wCreate output = some s) (ha : s.archive = some a) (hty : s.specType ≠ .script)
    (hh5 : s.archiveType = some .h5)
    (hdir : '/' ∈ a) (hscr : ∀ q ∈ s.script, '/' ∈ q ∧ q ≠ a) (hpath : Spec.PathOk a)
    (hk : ∀ it ∈ l, H5.PlainKey it.1) (hnd : (l.map (·.1)).Nodup)
    (hconv : ∀ it ∈ l, ∃ km, o.conv it.2 = some km ∧ H5.Given D km (val it.2)) :
    ∃ d' sorted, store d o output l = .done d' ∧
      (∀ p, p ≠ a → s.script ≠ some p → d' p = d p) ∧
      sorted.Perm (l.map (fun it => (it.1, val it.2))) ∧ (sorted.map (·.1)).Pairwise (· < ·) ∧
      (∀ pk, Readable ⟨pk, D⟩ d' plainOpts ("h5:".toList ++ a) sorted) ∧
      (∀ q, s.script = some q → Spec.PathOk q → o.sep = ' ' → Kaldi.PathOk ' ' a → ' ' ∉ a → l ≠ [] →
        ∀ pk, Readable ⟨pk, D⟩ d' plainOpts ("scp:".toList ++ q) (l.map (fun it => (it.1, val it.2)))) := by
  classical
  have hcf := store_eq d hs ha hty hdir (fun q hq => (hscr q hq).1) (Or.inl hh5) o l
  rw [if_pos hh5] at hcf
  let km : Nd → KMat := fun v => (o.conv v).getD (.plain v)
  have hkm : ∀ it ∈ l, o.conv it.2 = some (km it.2) ∧ H5.Given D (km it.2) (val it.2) := by
    intro it hit
    obtain ⟨m, h1, h2⟩ := hconv it hit
    have : km it.2 = m := by simp [km, h1]
    rw [this]; exact ⟨h1, h2⟩
  rw [write_h5 o a _ km (fun it hit => (hkm it hit).1), Option.map_map] at hcf
  obtain ⟨items, hcf, hm, hk', hv'⟩ : ∃ items : List (Str × KMat × Nd),
      store d o output l = finish (((H5.Writer.new s.script.isSome).write o.sep a (items.map (fun it => (it.1, it.2.1)))).map
          (fun w => ((created d s a).set a (some (.hdf w.file))).setScript s.script w.script)) ∧
      l.map (fun it => (it.1, val it.2)) = items.map (fun it => (it.1, it.2.2)) ∧
      (∀ it ∈ items, H5.PlainKey it.1) ∧ (∀ it ∈ items, H5.Given D it.2.1 it.2.2) := by
    refine ⟨l.map (fun it => (it.1, km it.2, val it.2)), ?_, by simp only [List.map_map]; rfl, ?_, ?_⟩
    · rw [hcf]; simp only [List.map_map]; rfl
    · intro it hit; obtain ⟨x, hx, rfl⟩ := List.mem_map.1 hit; exact hk x hx
    · intro it hit; obtain ⟨x, hx, rfl⟩ := List.mem_map.1 hit; exact (hkm x hx).2
  have hnd' : (items.map (·.1)).Nodup := by rw [keys_map hm]; exact hnd
  obtain ⟨w, sorted, hw, hperm, hsorted, hread⟩ := H5.C95_write_read D o.sep a s.script.isSome items hk' hnd' hv'
  rw [hw, Option.map_some] at hcf
  refine ⟨_, sorted, hcf, fun p hpa hps => frame_close hpa hps, by rw [hm]; exact hperm, hsorted, ?_, ?_⟩
  · intro pk
    have hda := archive_close (d := created d s a) (sc := s.script) (a := a) (c := .hdf w.file) (t := w.script)
      (fun q hq => (hscr q hq).2)
    obtain ⟨r, r', h1, h2, _⟩ := hread _ id (hdf_of hda)
    refine ⟨.h5File r, .h5File r', ?_, ?_, trivial⟩
    · unfold openSeqStr
      rw [rCreate_h5 _ hpath, Option.bind_some]
      show (H5.SeqFile.open _ a 1 1 false).map Rd.h5File = _
      rw [h1]; rfl
    · simp only [Rd.read]
      rw [h2]
      simp only [Option.map_some, id]
      rw [List.map_id'']
      intro x; rfl
  · intro q hq hqp hsep hap hblank hne pk
    have hne' : items ≠ [] := by
      intro h0
      rw [h0] at hm
      simp only [List.map_nil, List.map_eq_nil_iff] at hm
      exact hne hm
    have hsp : ∀ it ∈ items, ' ' ∉ it.1 := fun it hit => (isToken_writeToken (hk' it hit).token).2.1
    rw [hq, hsep] at hw
    obtain ⟨w2, x, hw2, hload, hread2⟩ := H5.C98_write_read D ' ' a hap items hne' hk' hsp hnd' hv'
    obtain rfl : w = w2 := Option.some.inj (hw.symm.trans hw2)
    obtain ⟨w3, _, hw3, _, hsc, _, _⟩ := H5.write_flat ' ' a items (H5.Writer.new true) [] rfl hk' (by simpa using hnd') hv'
    obtain rfl : w = w3 := Option.some.inj (hw.symm.trans hw3)
    have hda := archive_close (d := created d s a) (sc := s.script) (a := a) (c := .hdf w.file) (t := w.script)
      (fun q hq => (hscr q hq).2)
    have hdq : ((created d s a).set a (some (.hdf w.file))).setScript s.script w.script q = some (.txt w.script) := by
      rw [hq]; exact set_self
    have hty : scriptArchiveType (Disk.firstLine (((created d s a).set a (some (.hdf w.file))).setScript s.script w.script)) q =
        some .h5 := by
      refine h5_script_type hne' (fun it hit => (hk' it hit).token) hap hblank ?_
      rw [txt_of hdq, hsc]; rfl
    obtain ⟨r, h1, h2, _⟩ := hread2 _ id (hdf_of hda)
    obtain ⟨p, hp1, hp2⟩ := Option.map_eq_some_iff.1 h2
    refine ⟨.h5Scp r, .h5Scp p.2, ?_, ?_, trivial⟩
    · unfold openSeqStr
      rw [rCreate_scp _ hqp hty, Option.bind_some]
      show ((Disk.txt _ q).bind (Scp.load ' ' ':')).bind _ = _
      rw [txt_of hdq, Option.bind_some, hload, Option.bind_some]
      show (H5.SeqScript.open x 1 1 false none).map Rd.h5Scp = _
      rw [h1]; rfl
    · simp only [Rd.read]
      rw [hp1, hm]
      simp only [Option.map_some, hp2]
      rfl

end Hyp.Extract
