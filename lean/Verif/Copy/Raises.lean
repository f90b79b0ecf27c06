import Verif.Copy.H5Copy
import Verif.Copy.Parts

/-! C124: when copy-feats raises or loses data; C125: copying in parts; C126: random access that raises. -/

namespace Hyp.Copy
open Hyp.Text Hyp.Kaldi Hyp.Spec

theorem wCreate_ark {a : Str} (h : Spec.PathOk a) :
    wCreate ("ark:".toList ++ a) = some ⟨.archive, some a, none, some .ark, true, false, false⟩ := by
  exact (C28_write_spec_partial [.ark] [a] (by simp) (by simp) (by simpa using h)).trans rfl

theorem wCreate_h5 {a : Str} (h : Spec.PathOk a) :
    wCreate ("h5:".toList ++ a) = some ⟨.archive, some a, none, some .h5, true, false, false⟩ := by
  exact (C28_write_spec_partial [.h5] [a] (by simp) (by simp) (by simpa using h)).trans rfl

theorem wCreate_scp {a : Str} (h : Spec.PathOk a) :
    ∃ b f, wCreate ("scp:".toList ++ a) = some ⟨.script, none, some a, none, b, f, false⟩ := by
  exact ⟨_, _, (C28_write_spec_partial [.scp] [a] (by simp) (by simp) (by simpa using h)).trans rfl⟩

theorem contains_iff {a : Str} {c : Char} : a.contains c = true ↔ c ∈ a := List.contains_iff

theorem foldlM_fail {σ α : Type} {f : σ → α → Option σ} {a : α} (hf : ∀ s, f s a = none) : ∀ {l : List α}, a ∈ l → ∀ s, l.foldlM f s = none
  | [], h, _ => by simp at h
  | b :: l, h, s => by
    rw [List.foldlM_cons]
    rcases List.mem_cons.1 h with rfl | h
    · rw [hf]; rfl
    · rcases f s b with _ | s'
      · rfl
      · exact foldlM_fail hf h s'

theorem read_of_pending {e : Env} {d : Disk} {items : List (Str × Nd)} {r : Rd} (h : Pending e d items r) :
    ∃ r', r.read e d 0 = some (items, r') := by
  cases r with
  | arkFile r =>
    obtain ⟨r', h1, _, _, _⟩ := ArkReader.read_enc h.1 e.pk id 0 0 0 (fun it _ => Nd.rangeOk_zero _)
    refine ⟨.arkFile r', ?_⟩
    simp only [Rd.read]
    rw [h1, take_slice]; rfl
  | arkScp r =>
    obtain ⟨hc, r', h⟩ := h
    refine ⟨.arkScp r', ?_⟩
    simp only [Rd.read, ScpReader.read, if_true]
    rw [scpLoop_G e d.bin _ r hc]
    show Option.map _ (loopG _ scpLeft (scpLeft r) r) = _
    rw [h]; rfl
  | h5File r =>
    obtain ⟨hc, r', h⟩ := h
    refine ⟨.h5File r', ?_⟩
    simp only [Rd.read, H5.SeqFile.read, if_true]
    rw [seqLoop_G e _ _ r hc]
    show Option.map _ (loopG _ seqLeft (seqLeft r) r) = _
    rw [h]; rfl
  | h5Scp r =>
    obtain ⟨hc, r', h⟩ := h
    refine ⟨.h5Scp r', ?_⟩
    simp only [Rd.read, H5.SeqScript.read, if_true]
    rw [scrLoop_G e d.hdf _ _ r hc]
    show Option.map _ (loopG _ scrLeft (scrLeft r) r) = _
    rw [h]; rfl

theorem readable_ext {e : Env} {d d' : Disk} (hext : Ext d d') {ro : ROpts} {s : Str} {items : List (Str × Nd)}
    (h : Readable e d ro s items) : Readable e d' ro s items := by
  obtain ⟨r, r', h1, h2, h3⟩ := h
  have hst : Start r := by
    obtain ⟨x, hx, hr⟩ := Option.bind_eq_some_iff.1 h1
    exact openSeq_start hr
  obtain ⟨hp, _⟩ := pending_of_read hst h3 h2
  obtain ⟨r2, hr2⟩ := read_of_pending (hp.ext hext)
  exact ⟨r, r2, openSeqStr_ext hext h1, hr2, h3⟩

/-! ## C124 -/

/-- Copying an ark archive onto itself does not raise and leaves an empty archive: the output is emptied before the
input is read. -/
theorem C124_in_place_empties (e : Env) (d : Disk) (ro : ROpts) (o : WOpts) (a : Str) (chunk : Nat) (hpath : Spec.PathOk a)
    (hdir : '/' ∈ a) (hp : ro.parts ≤ 1) :
    ∃ d', copyFeats e d ro o ["ark:".toList ++ a] ("ark:".toList ++ a) chunk = some d' ∧
      d' a = some (.bin []) ∧ (∀ p, p ≠ a → d' p = d p) ∧ ∀ pk, Readable ⟨pk, e.D⟩ d' plainOpts ("ark:".toList ++ a) [] := by
  have hempty : ∀ (d : Disk) (o : ROpts), o.parts ≤ 1 → d a = some (.bin []) →
      openSeqStr d o ("ark:".toList ++ a) = some (.arkFile (ArkReader.open [])) := by
    intro d o ho hd
    unfold openSeqStr
    rw [rCreate_ark _ hpath, Option.bind_some]
    simp only [openSeq]
    rw [if_neg (by omega), bin_of hd]
    rfl
  have hread : ∀ (pk : Peek) (k : Nat) (dd : Disk), ∃ r', (Rd.arkFile (ArkReader.open [])).read ⟨pk, e.D⟩ dd k = some ([], r') := by
    intro pk k dd
    have henc : Enc e.D [] ((ArkReader.open []).rest) := Enc.nil
    obtain ⟨r', h1, _, _, _⟩ := ArkReader.read_enc henc pk id k 0 0 (by simp)
    exact ⟨.arkFile r', by simp only [Rd.read]; rw [h1]; simp⟩
  refine ⟨(d.set a (some (.bin []))).set a (some (.bin [])), ?_, ?_, ?_, ?_⟩
  rotate_left 1
  · exact set_self (d := d.set a (some (.bin []))) (p := a) (c := some (.bin []))
  · intro p hpa
    rw [set_of_ne hpa, set_of_ne hpa]
  · intro pk
    obtain ⟨r', hr'⟩ := hread pk 0 ((d.set a (some (.bin []))).set a (some (.bin [])))
    exact ⟨_, r', hempty _ _ (by decide) set_self, hr', ⟨[], Enc.nil⟩⟩
  · unfold copyFeats
    rw [if_neg (by simp), wCreate_ark hpath, Option.bind_some]
    have hw : openWriter d ⟨.archive, some a, none, some .ark, true, false, false⟩ =
        some (.ark ⟨[], []⟩, d.set a (some (.bin []))) := by
      simp only [openWriter, openArchiveWriter, dirOk, scriptOk, contains_iff.2 hdir, Bool.and_self, if_true]
      rfl
    rw [hw, Option.bind_some]
    have hin : copyInput e (d.set a (some (.bin []))) ro o a chunk (.ark ⟨[], []⟩) ("ark:".toList ++ a) = some (.ark ⟨[], []⟩) := by
      unfold copyInput
      rw [hempty _ _ hp set_self, Option.bind_some]
      obtain ⟨r', hr'⟩ := hread e.pk chunk (d.set a (some (.bin [])))
      show copyLoop e _ o a chunk (0 + 2) _ _ = _
      unfold copyLoop
      rw [if_neg (by simp [Rd.eof, ArkReader.open]), hr']
    simp only [Option.getD_some, List.foldlM_cons, hin, List.foldlM_nil]
    rfl

/-- An HDF5 archive copied onto itself raises. -/
theorem C124_in_place_h5_raises (e : Env) (d : Disk) (ro : ROpts) (o : WOpts) (a : Str) (chunk : Nat) (hpath : Spec.PathOk a) :
    copyFeats e d ro o ["h5:".toList ++ a] ("h5:".toList ++ a) chunk = none := by
  unfold copyFeats
  split
  · rfl
  · rw [wCreate_h5 hpath, Option.bind_some]
    rcases hw : openWriter d ⟨.archive, some a, none, some .h5, true, false, false⟩ with _ | p
    · rfl
    · rw [Option.bind_some]
      have hp : p.2 a = none := by
        simp only [openWriter, openArchiveWriter] at hw
        split at hw
        · obtain rfl := Option.some.inj hw
          exact set_self
        · simp at hw
      have hin : ∀ w, copyInput e p.2 ro o a chunk w ("h5:".toList ++ a) = none := by
        intro w
        unfold copyInput openSeqStr
        rw [rCreate_h5 _ hpath, Option.bind_some]
        simp only [openSeq]
        have : p.2.hdf a = none := by unfold Disk.hdf; rw [hp]
        unfold H5.SeqFile.open
        rw [this]; rfl
      simp only [Option.getD_some, List.foldlM_cons, hin]
      rfl

/-- An output file given by its bare name, without a directory, raises - the archive or the script. -/
theorem C124_bare_output_raises (e : Env) (d : Disk) (ro : ROpts) (o : WOpts) (inputs : List Str) (output : Str) (chunk : Nat)
    (s : WSpecifier) (hs : wCreate output = some s) (p : Str) (hp : s.archive = some p ∨ s.script = some p) (hno : '/' ∉ p) :
    copyFeats e d ro o inputs output chunk = none := by
  have hw : openWriter d s = none := by
    unfold openWriter
    split
    · rfl
    · rfl
    · rename_i a ha _
      unfold openArchiveWriter
      have hd : dirOk p = false := by
        unfold dirOk; rw [Bool.eq_false_iff]; exact fun h => hno (contains_iff.1 h)
      rw [if_neg]
      rcases hp with hp | hp
      · rw [ha] at hp; obtain rfl := Option.some.inj hp; rw [hd]; simp
      · rw [hp]; simp [scriptOk, hd]
  unfold copyFeats
  split
  · rfl
  · rw [hs, Option.bind_some, hw]; rfl

/-- A specifier with a script but no archive raises. -/
theorem C124_script_only_raises (e : Env) (d : Disk) (ro : ROpts) (o : WOpts) (inputs : List Str) (q : Str) (chunk : Nat)
    (hq : Spec.PathOk q) : copyFeats e d ro o inputs ("scp:".toList ++ q) chunk = none := by
  unfold copyFeats
  split
  · rfl
  · obtain ⟨b, f, h⟩ := wCreate_scp hq
    rw [h, Option.bind_some]
    rfl

/-- Several inputs cannot be copied in parts. -/
theorem C124_parts_of_many_raises (e : Env) (d : Disk) (ro : ROpts) (o : WOpts) (inputs : List Str) (output : Str) (chunk : Nat)
    (hP : 1 < ro.parts) (hn : 1 < inputs.length) : copyFeats e d ro o inputs output chunk = none := by
  unfold copyFeats
  rw [if_pos (by simp [hP, hn])]

/-- An ark archive (without script) cannot be copied in parts. -/
theorem C124_parts_of_ark_raises (e : Env) (d : Disk) (ro : ROpts) (o : WOpts) (inputs : List Str) (a output : Str) (chunk : Nat)
    (ha : Spec.PathOk a) (hin : "ark:".toList ++ a ∈ inputs) (hP : 1 < ro.parts) :
    copyFeats e d ro o inputs output chunk = none := by
  unfold copyFeats
  split
  · rfl
  · rcases wCreate output with _ | s
    · rfl
    · rw [Option.bind_some]
      rcases openWriter d s with _ | p
      · rfl
      · rw [Option.bind_some]
        have hf : ∀ w, copyInput e p.2 ro o (s.archive.getD []) chunk w ("ark:".toList ++ a) = none := by
          intro w
          unfold copyInput openSeqStr
          rw [rCreate_ark _ ha, Option.bind_some]
          simp only [openSeq]
          rw [if_pos hP]; rfl
        rw [foldlM_fail hf hin]
        rfl

/-- An input archive that does not exist raises (unless it is itself the output). -/
theorem C124_missing_input_raises (e : Env) (d : Disk) (ro : ROpts) (o : WOpts) (inputs : List Str) (a output : Str) (chunk : Nat)
    (s : WSpecifier) (hs : wCreate output = some s) (ha : Spec.PathOk a)
    (hin : "ark:".toList ++ a ∈ inputs ∨ "h5:".toList ++ a ∈ inputs) (hd : d a = none) (h1 : s.archive ≠ some a)
    (h2 : s.script ≠ some a) :
    copyFeats e d ro o inputs output chunk = none := by
  unfold copyFeats
  split
  · rfl
  · rw [hs, Option.bind_some]
    rcases hw : openWriter d s with _ | p
    · rfl
    · rw [Option.bind_some]
      have hp : p.2 a = none := by
        unfold openWriter at hw
        split at hw
        · simp at hw
        · simp at hw
        · rename_i b hb _
          have hne : a ≠ b := fun h => h1 (by rw [h]; exact hb)
          have hns : a ∉ s.script.toList := by
            rcases hx : s.script with _ | q
            · simp
            · rw [hx] at h2; simp at h2 ⊢; exact fun h => h2 h.symm
          unfold openArchiveWriter at hw
          split at hw
          · split at hw
            · obtain rfl := Option.some.inj hw
              show (d.set b none).setScript s.script [] a = none
              rw [setScript_of_ne hns, set_of_ne hne, hd]
            · split at hw
              · obtain rfl := Option.some.inj hw
                show (d.set b _).setScript s.script [] a = none
                rw [setScript_of_ne hns, set_of_ne hne, hd]
              · simp at hw
          · simp at hw
      have hbin : p.2.bin a = none := by unfold Disk.bin; rw [hp]
      have hhdf : p.2.hdf a = none := by unfold Disk.hdf; rw [hp]
      rcases hin with hin | hin
      · have hf : ∀ w, copyInput e p.2 ro o (s.archive.getD []) chunk w ("ark:".toList ++ a) = none := by
          intro w
          unfold copyInput openSeqStr
          rw [rCreate_ark _ ha, Option.bind_some]
          simp only [openSeq]
          rw [hbin]
          split <;> rfl
        rw [foldlM_fail hf hin]; rfl
      · have hf : ∀ w, copyInput e p.2 ro o (s.archive.getD []) chunk w ("h5:".toList ++ a) = none := by
          intro w
          unfold copyInput openSeqStr
          rw [rCreate_h5 _ ha, Option.bind_some]
          simp only [openSeq]
          unfold H5.SeqFile.open
          rw [hhdf]; rfl
        rw [foldlM_fail hf hin]; rfl

/-- A script whose first line has no blank (say, a script with the separator `=`) cannot be opened, whatever the
separator option: the type of the archives is looked for after the first blank of that line. -/
theorem C124_separator_ignored (d : Disk) (ro : ROpts) (q : Str) (hq : Spec.PathOk q) (l : Str)
    (hl : d.firstLine q = some l) (hno : ' ' ∉ strip l) :
    openSeqStr d ro ("scp:".toList ++ q) = none ∧
      (rCreate d.firstLine ("scp:".toList ++ q)).bind (openRand d ro.pref ro.sep) = none := by
  have h : rCreate d.firstLine ("scp:".toList ++ q) = none := by
    refine (C28_read_spec_partial d.firstLine [.scp] q (by simp) hq).trans ?_
    show Option.map _ (Option.map _ (scriptArchiveType d.firstLine q)) = _
    have : scriptArchiveType d.firstLine q = none := by
      unfold scriptArchiveType
      rw [hl]
      simp only [Option.bind_eq_bind, Option.bind_some]
      rw [splitAll_noSep hno]
      rfl
    rw [this]; rfl
  unfold openSeqStr
  rw [h]
  exact ⟨rfl, rfl⟩

/-! ## C126 -/

/-- Random access to an ark archive without its script raises. -/
theorem C126_random_ark_without_script_raises (d : Disk) (pref : Option Str) (sep : Char) (a : Str) (ha : Spec.PathOk a) :
    (rCreate d.firstLine ("ark:".toList ++ a)).bind (openRand d pref sep) = none := by
  rw [rCreate_ark _ ha]; rfl

/-! ## C125 -/

/-- A script (or HDF5 archive) copied in `P` parts, each to an ark archive of its own: no copy raises, and the
archives read one after the other give the records of the whole input, converted, in order. -/
theorem C125_copy_parts (e : Env) (d : Disk) (pref : Option Str) (sep : Char) (o : WOpts) (s : Str) (sp : RSpecifier)
    (items : List (Str × Nd)) (P : Nat) (hP : 1 ≤ P) (outs : Nat → Str) (chunk : Nat) (val : Nd → Nd)
    (hs : rCreate (without d ((List.range' 1 P).map outs)).firstLine s = some sp) (hna : sp.specType = .script ∨ sp.archiveType = .h5)
    (h0 : sp.specType = .script → sp.archiveType = .ark → ∀ t x, d.txt sp.archive = some t → Scp.load sep ':' t = some x →
      ∀ en ∈ x.entries, en.2.2.1 ≠ some 0)
    (hr : Readable e (without d ((List.range' 1 P).map outs)) ⟨pref, sep, 1, 1⟩ s items)
    (hout : ∀ i, 1 ≤ i → i ≤ P → '/' ∈ outs i ∧ Spec.PathOk (outs i))
    (hk : ∀ it ∈ items, isToken it.1 = true)
    (hconv : ∀ it ∈ items, ∃ km, o.conv it.2 = some km ∧ km.Value e.D (val it.2)) :
    ∃ blocks, List.Forall₂ (fun i block => ∃ d', copyFeats e d ⟨pref, sep, i, P⟩ o [s] ("ark:".toList ++ outs i) chunk = some d' ∧
        (∀ p, p ≠ outs i → d' p = d p) ∧ ∀ pk, Readable ⟨pk, e.D⟩ d' plainOpts ("ark:".toList ++ outs i) block) (List.range' 1 P) blocks ∧
      blocks.flatten = items.map (fun it => (it.1, val it.2)) := by
  obtain ⟨blocks, hb, rfl⟩ := C125_parts e (without d ((List.range' 1 P).map outs)) pref sep s sp items P hP hs hna
    (by
      intro h1 h2 t x ht hx
      refine h0 h1 h2 t x ?_ hx
      have hext : Ext (without d ((List.range' 1 P).map outs)) d := by
        intro p c hc
        unfold without at hc
        split at hc
        · simp at hc
        · exact hc
      exact hext.txt ht) hr
  refine ⟨blocks.map (fun b => b.map (fun it => (it.1, val it.2))), ?_, ?_⟩
  · rw [List.forall₂_map_right_iff]
    have hmem : ∀ i b, i ∈ List.range' 1 P → b ∈ blocks →
        Readable e (without d ((List.range' 1 P).map outs)) ⟨pref, sep, i, P⟩ s b →
        ∃ d', copyFeats e d ⟨pref, sep, i, P⟩ o [s] ("ark:".toList ++ outs i) chunk = some d' ∧
          (∀ p, p ≠ outs i → d' p = d p) ∧
          ∀ pk, Readable ⟨pk, e.D⟩ d' plainOpts ("ark:".toList ++ outs i) (b.map (fun it => (it.1, val it.2))) := by
      intro i b hi hbm hrb
      have hi' := List.mem_range'_1.1 hi
      obtain ⟨ho1, ho2⟩ := hout i hi'.1 (by omega)
      have hsub : ∀ it ∈ b, it ∈ blocks.flatten := fun it hit => List.mem_flatten.2 ⟨b, hbm, hit⟩
      have hext : Ext (without d ((List.range' 1 P).map outs)) (without d [outs i]) := by
        intro p c hc
        unfold without at hc ⊢
        split at hc
        · simp at hc
        · rename_i hn
          rw [if_neg]
          · exact hc
          · intro h
            rw [List.mem_singleton] at h
            exact hn (List.mem_map.2 ⟨i, hi, h.symm⟩)
      obtain ⟨d', g1, g2, g3, _⟩ := C123_copy_to_ark e d ⟨pref, sep, i, P⟩ o [s] [b] ("ark:".toList ++ outs i) _ (outs i) chunk val
        (wCreate_ark ho2) rfl (by simp) rfl rfl ho1 (by simp) ho2
        (List.Forall₂.cons (readable_ext hext hrb) List.Forall₂.nil) (Or.inr (by simp))
        (fun it hit => hk it (hsub it (by simpa using hit)))
        (fun it hit => hconv it (hsub it (by simpa using hit)))
      exact ⟨d', g1, fun p hp => g2 p hp (by simp), by simpa using g3⟩
    have hall : ∀ {l : List Nat} {bs : List (List (Str × Nd))}, (∀ i ∈ l, i ∈ List.range' 1 P) → (∀ b ∈ bs, b ∈ blocks) →
        List.Forall₂ (fun i block => Readable e (without d ((List.range' 1 P).map outs)) ⟨pref, sep, i, P⟩ s block) l bs →
        List.Forall₂ (fun i b => ∃ d', copyFeats e d ⟨pref, sep, i, P⟩ o [s] ("ark:".toList ++ outs i) chunk = some d' ∧
          (∀ p, p ≠ outs i → d' p = d p) ∧
          ∀ pk, Readable ⟨pk, e.D⟩ d' plainOpts ("ark:".toList ++ outs i) (b.map (fun it => (it.1, val it.2)))) l bs := by
      intro l bs hl hbs h
      induction h with
      | nil => exact .nil
      | cons h t ih =>
        exact .cons (hmem _ _ (hl _ (by simp)) (hbs _ (by simp)) h)
          (ih (fun i hi => hl i (by simp [hi])) (fun b hb => hbs b (by simp [hb])))
    exact hall (fun _ h => h) (fun _ h => h) hb
  · rw [List.map_flatten]

end Hyp.Copy
