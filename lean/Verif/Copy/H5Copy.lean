import Verif.Copy.CopyProps

/-! C123 (HDF5 outputs), C126 (random access to a copy). -/

namespace Hyp.Copy
open Hyp.Text Hyp.Kaldi Hyp.Spec

theorem frame_close {d : Disk} {s : WSpecifier} {a p : Str} {c : Content} {t : Str} (hpa : p ≠ a) (hps : s.script ≠ some p) :
    (((created d s a).set a (some c)).setScript s.script t) p = d p := by
  have hns : p ∉ s.script.toList := by
    rcases hx : s.script with _ | q
    · simp
    · rw [hx] at hps; simp at hps ⊢; exact fun h => hps h.symm
  rw [setScript_of_ne hns, set_of_ne hpa, created_of_ne hpa hns]

theorem archive_close {d : Disk} {sc : Option Str} {a : Str} {c : Content} {t : Str} (hs : ∀ q ∈ sc, q ≠ a) :
    ((d.set a (some c)).setScript sc t) a = some c := by
  rw [setScript_of_ne, set_self]
  rcases hx : sc with _ | q
  · simp
  · have := hs q hx; simp; exact fun h => this h.symm

/-- the ark writer after a copy. -/
theorem copy_ark_core {e : Env} {d : Disk} {ro : ROpts} {o : WOpts} {inputs : List Str} {blocks : List (List (Str × Nd))}
    {output : Str} {s : WSpecifier} {a : Str} (chunk : Nat) {val : Nd → Nd}
    (hs : wCreate output = some s) (ha : s.archive = some a) (hty : s.specType ≠ .script)
    (hark : s.archiveType = some .ark) (hbin : s.binary = true)
    (hdir : '/' ∈ a) (hscr : ∀ q ∈ s.script, '/' ∈ q ∧ q ≠ a)
    (hin : List.Forall₂ (Readable e (without d (a :: s.script.toList)) ro) inputs blocks)
    (hp : ro.parts ≤ 1 ∨ inputs.length ≤ 1)
    (hk : ∀ it ∈ blocks.flatten, isToken it.1 = true)
    (hconv : ∀ it ∈ blocks.flatten, ∃ km, o.conv it.2 = some km ∧ km.Value e.D (val it.2)) :
    ∃ (w : ArkWriter) (items : List (Str × KMat × Nd)),
      copyFeats e d ro o inputs output chunk = some (Wr.close (created d s a) a s.script (.ark w)) ∧
      (ArkWriter.mk [] []).write o.sep a (items.map (fun it => (it.1, it.2.1))) = some w ∧
      blocks.flatten.map (fun it => (it.1, val it.2)) = items.map (fun it => (it.1, it.2.2)) ∧
      (∀ it ∈ items, isToken it.1 = true) ∧ (∀ it ∈ items, it.2.1.Value e.D it.2.2) := by
  classical
  have hin' : List.Forall₂ (Readable e (without d (outputs s)) ro) inputs blocks := by
    unfold outputs; rw [ha]; exact hin
  have hcf := copyFeats_eq hs ha hty hdir (fun q hq => (hscr q hq).1) (Or.inr hbin) hin' hp o chunk
  have hif : (if s.archiveType = some .h5 then Wr.h5 (H5.Writer.new s.script.isSome) else Wr.ark ⟨[], []⟩) = Wr.ark ⟨[], []⟩ := by
    rw [hark]; rfl
  rw [hif] at hcf
  let km : Nd → KMat := fun v => (o.conv v).getD (.plain v)
  have hkm : ∀ it ∈ blocks.flatten, o.conv it.2 = some (km it.2) ∧ (km it.2).Value e.D (val it.2) := by
    intro it hit
    obtain ⟨m, h1, h2⟩ := hconv it hit
    have : km it.2 = m := by simp [km, h1]
    rw [this]; exact ⟨h1, h2⟩
  rw [write_ark o a _ km (fun it hit => (hkm it hit).1)] at hcf
  let items : List (Str × KMat × Nd) := blocks.flatten.map (fun it => (it.1, km it.2, val it.2))
  have hm1 : blocks.flatten.map (fun it => (it.1, km it.2)) = items.map (fun it => (it.1, it.2.1)) := by
    simp only [items, List.map_map]; rfl
  have hk' : ∀ it ∈ items, isToken it.1 = true := by
    intro it hit; obtain ⟨x, hx, rfl⟩ := List.mem_map.1 hit; exact hk x hx
  have hv' : ∀ it ∈ items, it.2.1.Value e.D it.2.2 := by
    intro it hit; obtain ⟨x, hx, rfl⟩ := List.mem_map.1 hit; exact (hkm x hx).2
  obtain ⟨w, bs, offs, hw, _⟩ := write_spec o.sep a items hk' hv' ⟨[], []⟩
  rw [hm1, hw] at hcf
  exact ⟨w, items, hcf, hw, by simp only [items, List.map_map]; rfl, hk', hv'⟩

/-- what the writer is given in a copy to an HDF5 archive. -/
theorem copy_h5_core {e : Env} {d : Disk} {ro : ROpts} {o : WOpts} {inputs : List Str} {blocks : List (List (Str × Nd))}
    {output : Str} {s : WSpecifier} {a : Str} (chunk : Nat) {val : Nd → Nd}
    (hs : wCreate output = some s) (ha : s.archive = some a) (hty : s.specType ≠ .script)
    (hh5 : s.archiveType = some .h5)
    (hdir : '/' ∈ a) (hscr : ∀ q ∈ s.script, '/' ∈ q ∧ q ≠ a)
    (hin : List.Forall₂ (Readable e (without d (a :: s.script.toList)) ro) inputs blocks)
    (hp : ro.parts ≤ 1 ∨ inputs.length ≤ 1)
    (hk : ∀ it ∈ blocks.flatten, H5.PlainKey it.1)
    (hconv : ∀ it ∈ blocks.flatten, ∃ km, o.conv it.2 = some km ∧ H5.Given e.D km (val it.2)) :
    ∃ (items : List (Str × KMat × Nd)),
      copyFeats e d ro o inputs output chunk =
        ((H5.Writer.new s.script.isSome).write o.sep a (items.map (fun it => (it.1, it.2.1)))).map
          (fun w => ((created d s a).set a (some (.hdf w.file))).setScript s.script w.script) ∧
      blocks.flatten.map (fun it => (it.1, val it.2)) = items.map (fun it => (it.1, it.2.2)) ∧
      (∀ it ∈ items, H5.PlainKey it.1) ∧ (∀ it ∈ items, H5.Given e.D it.2.1 it.2.2) := by
  classical
  have hin' : List.Forall₂ (Readable e (without d (outputs s)) ro) inputs blocks := by
    unfold outputs; rw [ha]; exact hin
  have hcf := copyFeats_eq hs ha hty hdir (fun q hq => (hscr q hq).1) (Or.inl hh5) hin' hp o chunk
  rw [if_pos hh5] at hcf
  let km : Nd → KMat := fun v => (o.conv v).getD (.plain v)
  have hkm : ∀ it ∈ blocks.flatten, o.conv it.2 = some (km it.2) ∧ H5.Given e.D (km it.2) (val it.2) := by
    intro it hit
    obtain ⟨m, h1, h2⟩ := hconv it hit
    have : km it.2 = m := by simp [km, h1]
    rw [this]; exact ⟨h1, h2⟩
  rw [write_h5 o a _ km (fun it hit => (hkm it hit).1), Option.map_map] at hcf
  refine ⟨blocks.flatten.map (fun it => (it.1, km it.2, val it.2)), ?_, by simp only [List.map_map]; rfl, ?_, ?_⟩
  · rw [hcf]; simp only [List.map_map]; rfl
  · intro it hit; obtain ⟨x, hx, rfl⟩ := List.mem_map.1 hit; exact hk x hx
  · intro it hit; obtain ⟨x, hx, rfl⟩ := List.mem_map.1 hit; exact (hkm x hx).2

theorem keys_map {items : List (Str × KMat × Nd)} {l : List (Str × Nd)} {val : Nd → Nd}
    (h : l.map (fun it => (it.1, val it.2)) = items.map (fun it => (it.1, it.2.2))) : items.map (·.1) = l.map (·.1) := by
  have := congrArg (List.map (fun p : Str × Nd => p.1)) h
  simpa [List.map_map, Function.comp_def] using this.symm

/-- Copying readable inputs with distinct keys into an HDF5 archive: it does not raise, the other files do not
change, and the new archive gives the same records in increasing order of key; the new script file gives them in
the order of the inputs. -/
theorem C123_copy_to_h5 (e : Env) (d : Disk) (ro : ROpts) (o : WOpts) (inputs : List Str) (blocks : List (List (Str × Nd)))
    (output : Str) (s : WSpecifier) (a : Str) (chunk : Nat) (val : Nd → Nd)
    (hs : wCreate output = some s) (ha : s.archive = some a) (hty : s.specType ≠ .script)
    (hh5 : s.archiveType = some .h5)
    (hdir : '/' ∈ a) (hscr : ∀ q ∈ s.script, '/' ∈ q ∧ q ≠ a) (hpath : Spec.PathOk a)
    (hin : List.Forall₂ (Readable e (without d (a :: s.script.toList)) ro) inputs blocks)
    (hp : ro.parts ≤ 1 ∨ inputs.length ≤ 1)
    (hk : ∀ it ∈ blocks.flatten, H5.PlainKey it.1) (hnd : (blocks.flatten.map (·.1)).Nodup)
    (hconv : ∀ it ∈ blocks.flatten, ∃ km, o.conv it.2 = some km ∧ H5.Given e.D km (val it.2)) :
    ∃ d' sorted, copyFeats e d ro o inputs output chunk = some d' ∧
      (∀ p, p ≠ a → s.script ≠ some p → d' p = d p) ∧
      sorted.Perm (blocks.flatten.map (fun it => (it.1, val it.2))) ∧ (sorted.map (·.1)).Pairwise (· < ·) ∧
      (∀ pk, Readable ⟨pk, e.D⟩ d' plainOpts ("h5:".toList ++ a) sorted) ∧
      (∀ q, s.script = some q → Spec.PathOk q → o.sep = ' ' → Kaldi.PathOk ' ' a → ' ' ∉ a → blocks.flatten ≠ [] →
        ∀ pk, Readable ⟨pk, e.D⟩ d' plainOpts ("scp:".toList ++ q) (blocks.flatten.map (fun it => (it.1, val it.2)))) := by
  obtain ⟨items, hcf, hm, hk', hv'⟩ := copy_h5_core chunk hs ha hty hh5 hdir hscr hin hp hk hconv
  have hnd' : (items.map (·.1)).Nodup := by rw [keys_map hm]; exact hnd
  obtain ⟨w, sorted, hw, hperm, hsorted, hread⟩ := H5.C95_write_read e.D o.sep a s.script.isSome items hk' hnd' hv'
  rw [hw, Option.map_some] at hcf
  refine ⟨_, sorted, hcf, fun p hpa hps => frame_close hpa hps, by rw [hm]; exact hperm, hsorted, ?_, ?_⟩
  · intro pk
    have hda := archive_close (d := created d s a) (sc := s.script) (a := a) (c := .hdf w.file) (t := w.script)
      (fun q hq => (hscr q hq).2)
    obtain ⟨r, r', h1, h2, _⟩ := hread _ id (hdf_of hda)
    refine ⟨.h5File r, .h5File r', ?_, ?_, trivial⟩
    · unfold openSeqStr
      rw [rCreate_h5 _ hpath, Option.bind_some]
      show (H5.SeqFile.open _ a 1 1 false).map Rd.h5File = _
      rw [h1]; rfl
    · simp only [Rd.read]
      rw [h2]
      simp only [Option.map_some, id]
      rw [List.map_id'']
      intro x; rfl
  · intro q hq hqp hsep hap hblank hne pk
    have hne' : items ≠ [] := by
      intro h0
      rw [h0] at hm
      simp only [List.map_nil, List.map_eq_nil_iff] at hm
      exact hne hm
    have hsp : ∀ it ∈ items, ' ' ∉ it.1 := fun it hit => (isToken_writeToken (hk' it hit).token).2.1
    rw [hq, hsep] at hw
    obtain ⟨w2, x, hw2, hload, hread2⟩ := H5.C98_write_read e.D ' ' a hap items hne' hk' hsp hnd' hv'
    obtain rfl : w = w2 := Option.some.inj (hw.symm.trans hw2)
    obtain ⟨w3, _, hw3, _, hsc, _, _⟩ := H5.write_flat ' ' a items (H5.Writer.new true) [] rfl hk' (by simpa using hnd') hv'
    obtain rfl : w = w3 := Option.some.inj (hw.symm.trans hw3)
    have hda := archive_close (d := created d s a) (sc := s.script) (a := a) (c := .hdf w.file) (t := w.script)
      (fun q hq => (hscr q hq).2)
    have hdq : ((created d s a).set a (some (.hdf w.file))).setScript s.script w.script q = some (.txt w.script) := by
      rw [hq]; exact set_self
    have hty : scriptArchiveType (Disk.firstLine (((created d s a).set a (some (.hdf w.file))).setScript s.script w.script)) q =
        some .h5 := by
      refine h5_script_type hne' (fun it hit => (hk' it hit).token) hap hblank ?_
      rw [txt_of hdq, hsc]; rfl
    obtain ⟨r, h1, h2, _⟩ := hread2 _ id (hdf_of hda)
    obtain ⟨p, hp1, hp2⟩ := Option.map_eq_some_iff.1 h2
    refine ⟨.h5Scp r, .h5Scp p.2, ?_, ?_, trivial⟩
    · unfold openSeqStr
      rw [rCreate_scp _ hqp hty, Option.bind_some]
      show ((Disk.txt _ q).bind (Scp.load ' ' ':')).bind _ = _
      rw [txt_of hdq, Option.bind_some, hload, Option.bind_some]
      show (H5.SeqScript.open x 1 1 false none).map Rd.h5Scp = _
      rw [h1]; rfl
    · simp only [Rd.read]
      rw [hp1, hm]
      simp only [Option.map_some, hp2]
      rfl

theorem lookup_of_nodup {β : Type} {k : Str} {v : β} : ∀ {l : List (Str × β)}, (l.map (·.1)).Nodup → (k, v) ∈ l → l.lookup k = some v
  | [], _, h => by simp at h
  | (k', v') :: l, hn, h => by
    rw [List.map_cons, List.nodup_cons] at hn
    rw [List.lookup_cons]
    rcases List.mem_cons.1 h with h | h
    · obtain ⟨rfl, rfl⟩ := Prod.mk.inj h
      simp
    · have : k ≠ k' := fun e => hn.1 (e ▸ List.mem_map.2 ⟨_, h, rfl⟩)
      rw [show (k == k') = false from beq_eq_false_iff_ne.2 this]
      exact lookup_of_nodup hn.2 h

theorem dup_split {l : List Str} (h : ¬ l.Nodup) : ∃ a k b, l = a ++ k :: b ∧ a.Nodup ∧ k ∈ a := by
  induction l using List.reverseRecOn with
  | nil => simp at h
  | append_singleton l x ih =>
    by_cases hl : l.Nodup
    · refine ⟨l, x, [], rfl, hl, ?_⟩
      by_contra hx
      exact h (List.nodup_append.2 ⟨hl, by simp, by
        intro a ha b hb hab
        rw [List.mem_singleton] at hb
        subst hb; subst hab
        exact hx ha⟩)
    · obtain ⟨a, k, b, rfl, h1, h2⟩ := ih hl
      exact ⟨a, k, b ++ [x], by simp, h1, h2⟩

/-- Copying inputs in which a key occurs twice (in one input or in two) into an HDF5 archive raises; the ark
archive keeps both records (`C123_copy_to_ark`). -/
theorem C123_duplicate_key_h5_raises (e : Env) (d : Disk) (ro : ROpts) (o : WOpts) (inputs : List Str)
    (blocks : List (List (Str × Nd))) (output : Str) (s : WSpecifier) (a : Str) (chunk : Nat) (val : Nd → Nd)
    (hs : wCreate output = some s) (ha : s.archive = some a) (hty : s.specType ≠ .script)
    (hh5 : s.archiveType = some .h5)
    (hdir : '/' ∈ a) (hscr : ∀ q ∈ s.script, '/' ∈ q ∧ q ≠ a)
    (hin : List.Forall₂ (Readable e (without d (a :: s.script.toList)) ro) inputs blocks)
    (hp : ro.parts ≤ 1 ∨ inputs.length ≤ 1)
    (hk : ∀ it ∈ blocks.flatten, H5.PlainKey it.1) (hnd : ¬ (blocks.flatten.map (·.1)).Nodup)
    (hconv : ∀ it ∈ blocks.flatten, ∃ km, o.conv it.2 = some km ∧ H5.Given e.D km (val it.2)) :
    copyFeats e d ro o inputs output chunk = none := by
  obtain ⟨items, hcf, hm, hk', hv'⟩ := copy_h5_core chunk hs ha hty hh5 hdir hscr hin hp hk hconv
  rw [hcf]
  have hnd' : ¬ (items.map (·.1)).Nodup := by rw [keys_map hm]; exact hnd
  obtain ⟨ka, k, kb, hsp, h1, h2⟩ := dup_split hnd'
  obtain ⟨l1, l2, rfl, rfl, hl2⟩ := List.map_eq_append_iff.1 hsp
  obtain ⟨it, l3, rfl, rfl, rfl⟩ := List.map_eq_cons_iff.1 hl2
  have := H5.C95_duplicate_raises e.D o.sep a s.script.isSome l1 (fun x hx => hk' x (by simp [hx])) h1
    (fun x hx => hv' x (by simp [hx])) it.1 it.2.1 h2
  unfold H5.Writer.write at this ⊢
  have hsplit : (l1 ++ it :: l3).map (fun it => (it.1, it.2.1)) =
      (l1.map (fun it => (it.1, it.2.1)) ++ [(it.1, it.2.1)]) ++ l3.map (fun it => (it.1, it.2.1)) := by simp
  rw [hsplit, List.foldlM_append, this]
  rfl

/-! ## C126 -/

/-- Random access to the script file of a copy into an ark archive, with distinct keys: the factory opens it, and
any list of keys of the copy (in any order, with repetitions) gets the arrays of those keys. -/
theorem C126_random_ark (e : Env) (d : Disk) (ro : ROpts) (o : WOpts) (inputs : List Str) (blocks : List (List (Str × Nd)))
    (output : Str) (s : WSpecifier) (a q : Str) (chunk : Nat) (val : Nd → Nd)
    (hs : wCreate output = some s) (ha : s.archive = some a) (hty : s.specType ≠ .script)
    (hark : s.archiveType = some .ark) (hbin : s.binary = true)
    (hdir : '/' ∈ a) (hq : s.script = some q) (hqdir : '/' ∈ q) (hqa : q ≠ a) (hqp : Spec.PathOk q) (hsep : o.sep = ' ')
    (hap : Kaldi.PathOk ' ' a) (hblank : ' ' ∉ a) (hne : blocks.flatten ≠ [])
    (hin : List.Forall₂ (Readable e (without d [a, q]) ro) inputs blocks) (hp : ro.parts ≤ 1 ∨ inputs.length ≤ 1)
    (hk : ∀ it ∈ blocks.flatten, isToken it.1 = true) (hnd : (blocks.flatten.map (·.1)).Nodup)
    (hconv : ∀ it ∈ blocks.flatten, ∃ km, o.conv it.2 = some km ∧ km.Value e.D (val it.2)) :
    ∃ d' rd, copyFeats e d ro o inputs output chunk = some d' ∧
      (rCreate d'.firstLine ("scp:".toList ++ q)).bind (openRand d' none ' ') = some rd ∧
      ∀ pk (want : List (Str × Nd)), (∀ it ∈ want, it ∈ blocks.flatten) →
        rd.read ⟨pk, e.D⟩ d' (want.map (·.1)) = some (want.map (fun it => val it.2)) := by
  have hscr : ∀ q' ∈ s.script, '/' ∈ q' ∧ q' ≠ a := by
    intro q' h; rw [hq] at h; obtain rfl := Option.some.inj h; exact ⟨hqdir, hqa⟩
  have hin' : List.Forall₂ (Readable e (without d (a :: s.script.toList)) ro) inputs blocks := by rw [hq]; exact hin
  obtain ⟨w, items, hcf, hw, hm, hk', hv'⟩ := copy_ark_core chunk hs ha hty hark hbin hdir hscr hin' hp hk hconv
  have hne' : items ≠ [] := by
    intro h0
    rw [h0] at hm
    simp only [List.map_nil, List.map_eq_nil_iff] at hm
    exact hne hm
  have hsp : ∀ it ∈ items, ' ' ∉ it.1 := fun it hit => (isToken_writeToken (hk' it hit)).2.1
  have hnd' : (items.map (·.1)).Nodup := by rw [keys_map hm]; exact hnd
  rw [hsep] at hw
  obtain ⟨w2, x, hw2, hload, hread⟩ := C22_random_access e.D ' ' a hap items hne' hk' hsp hv' hnd'
  obtain rfl : w = w2 := Option.some.inj (hw.symm.trans hw2)
  obtain ⟨w3, bs, offs, hw3, _, _, hws, hat⟩ := write_spec ' ' a items hk' hv' ⟨[], []⟩
  obtain rfl : w = w3 := Option.some.inj (hw.symm.trans hw3)
  have hda : Wr.close (created d s a) a s.script (.ark w) a = some (.bin w.ark) :=
    archive_close (fun q hq => (hscr q hq).2)
  have hdq : Wr.close (created d s a) a s.script (.ark w) q = some (.txt w.script) := by
    show ((created d s a).set a (some (.bin w.ark))).setScript s.script w.script q = _
    rw [hq]
    exact set_self
  have hty : scriptArchiveType (Disk.firstLine (Wr.close (created d s a) a s.script (.ark w))) q = some .ark := by
    refine ark_script_type hne' hat.length_eq.symm hk' hap hblank ?_
    rw [txt_of hdq, hws]; rfl
  refine ⟨_, .ark x false, hcf, ?_, ?_⟩
  · rw [rCreate_scp _ hqp hty, Option.bind_some]
    show ((Disk.txt _ q).bind (Scp.load ' ' ':')).map _ = _
    rw [txt_of hdq, Option.bind_some, hload]
    rfl
  · intro pk want hwant
    have hx : ∀ it ∈ want, ∃ y, y ∈ items ∧ y.1 = it.1 ∧ y.2.2 = val it.2 := by
      intro it hit
      have : (it.1, val it.2) ∈ items.map (fun y => (y.1, y.2.2)) := by
        rw [← hm]; exact List.mem_map.2 ⟨it, hwant it hit, rfl⟩
      obtain ⟨y, hy, hye⟩ := List.mem_map.1 this
      simp only [Prod.mk.injEq] at hye
      exact ⟨y, hy, hye⟩
    obtain ⟨i0, _⟩ := List.exists_mem_of_ne_nil _ hne'
    haveI : Nonempty (Str × KMat × Nd) := ⟨i0⟩
    choose! f hf using hx
    have hr := hread pk (Disk.bin (Wr.close (created d s a) a s.script (.ark w))) false 0 0 (want.map f) (bin_of hda)
      (by intro it hit; obtain ⟨y, hy, rfl⟩ := List.mem_map.1 hit; exact ⟨(hf y hy).1, Nd.rangeOk_zero _⟩)
    simp only [List.map_map] at hr
    have e1 : want.map ((fun x : Str × KMat × Nd => x.1) ∘ f) = want.map (·.1) :=
      List.map_congr_left (fun it hit => (hf it hit).2.1)
    have e2 : want.map ((fun it : Str × KMat × Nd => it.2.2.slice 0 0) ∘ f) = want.map (fun it => val it.2) :=
      List.map_congr_left (fun it hit => by simp only [Function.comp, Nd.slice_zero]; exact (hf it hit).2.2)
    rw [e1, e2] at hr
    exact hr

/-- The same for an HDF5 archive: through its script file or directly. -/
theorem C126_random_h5 (e : Env) (d : Disk) (ro : ROpts) (o : WOpts) (inputs : List Str) (blocks : List (List (Str × Nd)))
    (output : Str) (s : WSpecifier) (a : Str) (chunk : Nat) (val : Nd → Nd)
    (hs : wCreate output = some s) (ha : s.archive = some a) (hty : s.specType ≠ .script)
    (hh5 : s.archiveType = some .h5)
    (hdir : '/' ∈ a) (hscr : ∀ q ∈ s.script, '/' ∈ q ∧ q ≠ a) (hpath : Spec.PathOk a)
    (hin : List.Forall₂ (Readable e (without d (a :: s.script.toList)) ro) inputs blocks)
    (hp : ro.parts ≤ 1 ∨ inputs.length ≤ 1)
    (hk : ∀ it ∈ blocks.flatten, H5.PlainKey it.1) (hnd : (blocks.flatten.map (·.1)).Nodup)
    (hconv : ∀ it ∈ blocks.flatten, ∃ km, o.conv it.2 = some km ∧ H5.Given e.D km (val it.2)) :
    ∃ d' rd, copyFeats e d ro o inputs output chunk = some d' ∧
      (rCreate d'.firstLine ("h5:".toList ++ a)).bind (openRand d' none ' ') = some rd ∧
      (∀ pk (want : List (Str × Nd)), (∀ it ∈ want, it ∈ blocks.flatten) →
        rd.read ⟨pk, e.D⟩ d' (want.map (·.1)) = some (want.map (fun it => val it.2))) ∧
      ∀ q, s.script = some q → Spec.PathOk q → o.sep = ' ' → Kaldi.PathOk ' ' a → ' ' ∉ a → blocks.flatten ≠ [] →
        ∃ rq, (rCreate d'.firstLine ("scp:".toList ++ q)).bind (openRand d' none ' ') = some rq ∧
          ∀ pk (want : List (Str × Nd)), (∀ it ∈ want, it ∈ blocks.flatten) →
            rq.read ⟨pk, e.D⟩ d' (want.map (·.1)) = some (want.map (fun it => val it.2)) := by
  obtain ⟨items, hcf, hm, hk', hv'⟩ := copy_h5_core chunk hs ha hty hh5 hdir hscr hin hp hk hconv
  have hnd' : (items.map (·.1)).Nodup := by rw [keys_map hm]; exact hnd
  obtain ⟨w, sorted, hw, hperm, hholds⟩ := H5.C95_written_file e.D o.sep a s.script.isSome items hk' hnd' hv'
  rw [hw, Option.map_some] at hcf
  have hda := archive_close (d := created d s a) (sc := s.script) (a := a) (c := .hdf w.file) (t := w.script)
    (fun q hq => (hscr q hq).2)
  refine ⟨_, .h5File a w.file false, hcf, ?_, ?_, ?_⟩
  · rw [rCreate_h5 _ hpath, Option.bind_some]
    show (Disk.hdf _ a).map _ = _
    rw [hdf_of hda]; rfl
  · intro pk want hwant
    show H5.randFileRead e.D id (some w.file) false (want.map (·.1)) (.int 0) (.int 0) = _
    rw [H5.C97_random_rows e.D w.file sorted hholds id false _ ?_ _ _]
    · simp only [H5.Arg.fits, and_self, if_true, H5.Arg.at]
      rw [H5.zipIdx_mapM_int _ 0 (H5.wanted sorted false id (some 0) (some 0)), mapM_eq_some_iff, List.map_map, List.map_map]
      refine List.map_congr_left (fun it hit => ?_)
      have hin : (it.1, val it.2) ∈ sorted := by
        rw [hperm.mem_iff, ← hm]; exact List.mem_map.2 ⟨it, hwant it hit, rfl⟩
      have hsn : (sorted.map (·.1)).Nodup := hholds.sorted.imp (fun {_ _} h => ne_of_lt h)
      have hl : sorted.lookup it.1 = some (val it.2) :=
        lookup_of_nodup hsn hin
      simp only [Function.comp, H5.wanted, hl, Option.bind_eq_bind, Option.bind_some, H5.rowsOf?_zero]
      rfl
    · intro k hkm
      obtain ⟨it, hit, rfl⟩ := List.mem_map.1 hkm
      exact hk it (hwant it hit)
  · intro q hq hqp hsep hap hblank hne
    have hne' : items ≠ [] := by
      intro h0
      rw [h0] at hm
      simp only [List.map_nil, List.map_eq_nil_iff] at hm
      exact hne hm
    have hsp : ∀ it ∈ items, ' ' ∉ it.1 := fun it hit => (isToken_writeToken (hk' it hit).token).2.1
    rw [hq, hsep] at hw
    obtain ⟨w2, x, hw2, hload, hread2⟩ := H5.C98_write_read e.D ' ' a hap items hne' hk' hsp hnd' hv'
    obtain rfl : w = w2 := Option.some.inj (hw.symm.trans hw2)
    obtain ⟨w3, _, hw3, _, hsc, _, _⟩ := H5.write_flat ' ' a items (H5.Writer.new true) [] rfl hk' (by simpa using hnd') hv'
    obtain rfl : w = w3 := Option.some.inj (hw.symm.trans hw3)
    have hdq : ((created d s a).set a (some (.hdf w.file))).setScript s.script w.script q = some (.txt w.script) := by
      rw [hq]; exact set_self
    have hty : scriptArchiveType (Disk.firstLine (((created d s a).set a (some (.hdf w.file))).setScript s.script w.script)) q =
        some .h5 := by
      refine h5_script_type hne' (fun it hit => (hk' it hit).token) hap hblank ?_
      rw [txt_of hdq, hsc]; rfl
    obtain ⟨r, _, _, h3⟩ := hread2 _ id (hdf_of hda)
    refine ⟨.h5Scp (H5.RandScript.open x none) false, ?_, ?_⟩
    · rw [rCreate_scp _ hqp hty, Option.bind_some]
      show ((Disk.txt _ q).bind (Scp.load ' ' ':')).map _ = _
      rw [txt_of hdq, Option.bind_some, hload]
      rfl
    · intro pk want hwant
      have hx : ∀ it ∈ want, ∃ y, y ∈ items ∧ y.1 = it.1 ∧ y.2.2 = val it.2 := by
        intro it hit
        have : (it.1, val it.2) ∈ items.map (fun y => (y.1, y.2.2)) := by
          rw [← hm]; exact List.mem_map.2 ⟨it, hwant it hit, rfl⟩
        obtain ⟨y, hy, hye⟩ := List.mem_map.1 this
        simp only [Prod.mk.injEq] at hye
        exact ⟨y, hy, hye⟩
      obtain ⟨i0, _⟩ := List.exists_mem_of_ne_nil _ hne'
      haveI : Nonempty (Str × KMat × Nd) := ⟨i0⟩
      choose! f hf using hx
      have hr := h3 (want.map f) (by intro it hit; obtain ⟨y, hy, rfl⟩ := List.mem_map.1 hit; exact (hf y hy).1)
      simp only [List.map_map] at hr
      have e1 : want.map ((fun x : Str × KMat × Nd => x.1) ∘ f) = want.map (·.1) :=
        List.map_congr_left (fun it hit => (hf it hit).2.1)
      have e2 : want.map ((fun it : Str × KMat × Nd => id it.2.2) ∘ f) = want.map (fun it => val it.2) :=
        List.map_congr_left (fun it hit => (hf it hit).2.2)
      rw [e1, e2] at hr
      exact hr

end Hyp.Copy
