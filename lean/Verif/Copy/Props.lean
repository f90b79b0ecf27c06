import Verif.Copy.Lemmas
import Verif.H5.MoreProps
import Verif.Spec.Props

/-! C123 (copy-feats keeps the data), C124 (when it raises or destroys data), C125 (splitting in parts),
C126 (random access through the factory). -/

namespace Hyp.Copy
open Hyp.Text Hyp.Kaldi Hyp.Spec

/-! ### specification -/

/-- the disk without some files. -/
def without (d : Disk) (ps : List Str) : Disk := fun p => if p ∈ ps then none else d p

/-- an ark file is a sequence of well-formed records (no condition on the other kinds of input). -/
def Clean (e : Env) : Rd → Prop
  | .arkFile r => ∃ items, Enc e.D items r.content
  | _ => True

/-- the read specifier `s` stands for the records `items`: opened by the factory and read to the end with
`read()`, it gives them in this order. -/
def Readable (e : Env) (d : Disk) (ro : ROpts) (s : Str) (items : List (Str × Nd)) : Prop :=
  ∃ r r', openSeqStr d ro s = some r ∧ r.read e d 0 = some (items, r') ∧ Clean e r

/-- default options of the reader. -/
def plainOpts : ROpts := ⟨none, ' ', 1, 1⟩

/-! ### lemmas -/

theorem openScp_cur {x : Scp.Scp Str Str} {o : ROpts} {r : ScpReader} (h : openArkScp x o = some r) : r.cur = 0 := by
  unfold openArkScp at h
  obtain ⟨s, _, rfl⟩ := Option.map_eq_some_iff.1 h
  rfl

theorem openScr_cur {x : Scp.Scp Str Str} {a b : Nat} {k : Bool} {p : Option Str} {r : H5.SeqScript}
    (h : H5.SeqScript.open x a b k p = some r) : r.cur = 0 := by
  unfold H5.SeqScript.open at h
  dsimp only at h
  split at h
  all_goals
    obtain ⟨s, _, h⟩ := Option.bind_eq_some_iff.1 h
    obtain rfl := Option.some.inj h
    rfl

theorem openSeq_cur {fs : H5.Files} {p : Str} {a b : Nat} {k : Bool} {r : H5.SeqFile}
    (h : H5.SeqFile.open fs p a b k = some r) : r.cur = 0 := by
  unfold H5.SeqFile.open at h
  obtain ⟨f, _, h⟩ := Option.bind_eq_some_iff.1 h
  obtain ⟨ks, _, h⟩ := Option.bind_eq_some_iff.1 h
  obtain rfl := Option.some.inj h
  rfl

/-- a reader just opened is at the beginning. -/
def Start : Rd → Prop
  | .arkFile r => r.rest = r.content ∧ r.eof = false
  | .arkScp r => r.cur = 0
  | .h5File r => r.cur = 0
  | .h5Scp r => r.cur = 0

theorem openSeq_start {d : Disk} {o : ROpts} {s : RSpecifier} {r : Rd} (h : openSeq d o s = some r) : Start r := by
  unfold openSeq at h
  split at h
  · obtain ⟨x, hx, rfl⟩ := Option.map_eq_some_iff.1 h; exact openSeq_cur hx
  · split at h
    · simp at h
    · obtain ⟨x, hx, rfl⟩ := Option.map_eq_some_iff.1 h; exact ⟨rfl, rfl⟩
  · obtain ⟨x, _, h⟩ := Option.bind_eq_some_iff.1 h
    obtain ⟨y, hy, rfl⟩ := Option.map_eq_some_iff.1 h; exact openScr_cur hy
  · obtain ⟨x, _, h⟩ := Option.bind_eq_some_iff.1 h
    obtain ⟨y, hy, rfl⟩ := Option.map_eq_some_iff.1 h; exact openScp_cur hy

theorem pending_of_read {e : Env} {d : Disk} {r r' : Rd} {items : List (Str × Nd)} (hs : Start r) (hc : Clean e r)
    (h : r.read e d 0 = some (items, r')) : Pending e d items r ∧ items.length + 1 ≤ r.fuel := by
  cases r with
  | arkFile r =>
    obtain ⟨its, hits⟩ := hc
    rw [← hs.1] at hits
    obtain ⟨r'', h1, _, _, _⟩ := ArkReader.read_enc hits e.pk id 0 0 0 (fun it _ => Nd.rangeOk_zero _)
    simp only [Rd.read, h1, Option.map_some, Option.some.injEq, Prod.mk.injEq] at h
    have hm : items = its := by
      rw [← h.1]; simp [Nd.slice_zero]
    subst hm
    refine ⟨⟨hits, fun he => by rw [hs.2] at he; simp at he⟩, ?_⟩
    have := hits.length
    rw [hs.1] at this
    simp only [Rd.fuel]; omega
  | arkScp r =>
    have hc : r.cur = 0 := hs
    obtain ⟨p, hp, h⟩ := Option.map_eq_some_iff.1 h
    simp only [ScpReader.read, if_true] at hp
    rw [scpLoop_G e d.bin _ r (by omega)] at hp
    simp only [Prod.mk.injEq] at h
    obtain ⟨rfl, _⟩ := h
    have hl := (loopG_full (scp_steps e d.bin) (le_refl _) hp).2
    refine ⟨⟨by omega, p.2, hp⟩, ?_⟩
    simp only [Rd.fuel, scpLeft] at *; omega
  | h5File r =>
    have hc : r.cur = 0 := hs
    obtain ⟨p, hp, h⟩ := Option.map_eq_some_iff.1 h
    simp only [H5.SeqFile.read, if_true] at hp
    rw [seqLoop_G e _ _ r (by omega)] at hp
    simp only [Prod.mk.injEq] at h
    obtain ⟨rfl, _⟩ := h
    have hl := (loopG_full (seq_steps e) (le_refl _) hp).2
    refine ⟨⟨by omega, p.2, hp⟩, ?_⟩
    simp only [Rd.fuel, seqLeft] at *; omega
  | h5Scp r =>
    have hc : r.cur = 0 := hs
    obtain ⟨p, hp, h⟩ := Option.map_eq_some_iff.1 h
    simp only [H5.SeqScript.read, if_true] at hp
    rw [scrLoop_G e d.hdf _ _ r (by omega)] at hp
    simp only [Prod.mk.injEq] at h
    obtain ⟨rfl, _⟩ := h
    have hl := (loopG_full (scr_steps e d.hdf) (le_refl _) hp).2
    refine ⟨⟨by omega, p.2, hp⟩, ?_⟩
    simp only [Rd.fuel, scrLeft] at *; omega

/-! ### more files on the disk change nothing -/

def Ext (d d' : Disk) : Prop := ∀ p c, d p = some c → d' p = some c

theorem Ext.bin {d d' : Disk} (h : Ext d d') {p : Str} {c : Bytes} (hb : d.bin p = some c) : d'.bin p = some c := by
  unfold Disk.bin at hb ⊢
  split at hb
  · rename_i b hd; rw [h _ _ hd]; exact hb
  · simp at hb

theorem Ext.hdf {d d' : Disk} (h : Ext d d') {p : Str} {c : H5.File} (hb : d.hdf p = some c) : d'.hdf p = some c := by
  unfold Disk.hdf at hb ⊢
  split at hb
  · rename_i b hd; rw [h _ _ hd]; exact hb
  · simp at hb

theorem Ext.txt {d d' : Disk} (h : Ext d d') {p : Str} {c : Str} (hb : d.txt p = some c) : d'.txt p = some c := by
  unfold Disk.txt at hb ⊢
  split at hb
  · rename_i b hd; rw [h _ _ hd]; exact hb
  · simp at hb

theorem Ext.firstLine {d d' : Disk} (h : Ext d d') {p : Str} {c : Str} (hb : d.firstLine p = some c) :
    d'.firstLine p = some c := by
  unfold Disk.firstLine at hb ⊢
  obtain ⟨s, hs, rfl⟩ := Option.map_eq_some_iff.1 hb
  rw [h.txt hs]; rfl

theorem scriptArchiveType_ext {fl fl' : Str → Option Str} (h : ∀ p c, fl p = some c → fl' p = some c) {p : Str} {t}
    (ht : scriptArchiveType fl p = some t) : scriptArchiveType fl' p = some t := by
  unfold scriptArchiveType at ht ⊢
  obtain ⟨l, hl, ht⟩ := Option.bind_eq_some_iff.1 ht
  simp only [Option.bind_eq_bind]
  rw [h _ _ hl]
  exact ht

theorem rCreate_ext {fl fl' : Str → Option Str} (h : ∀ p c, fl p = some c → fl' p = some c) {s : Str} {r : RSpecifier}
    (hr : rCreate fl s = some r) : rCreate fl' s = some r := by
  unfold rCreate at hr ⊢
  split at hr
  · exact hr
  · unfold rCreate2 at hr ⊢
    split at hr
    · obtain ⟨st, hst, hr⟩ := Option.bind_eq_some_iff.1 hr
      obtain ⟨⟨ty, at0⟩, hk, hr⟩ := Option.bind_eq_some_iff.1 hr
      simp only [Option.bind_eq_bind]
      rw [hst, Option.bind_some, hk, Option.bind_some]
      cases at0 with
      | some a => exact hr
      | none =>
        obtain ⟨aty, hat, hr⟩ := Option.bind_eq_some_iff.1 hr
        simp only at hat ⊢
        rw [scriptArchiveType_ext h hat]
        exact hr
    · simp at hr
  · simp at hr

theorem openSeq_ext {d d' : Disk} (h : Ext d d') {o : ROpts} {s : RSpecifier} {r : Rd} (hr : openSeq d o s = some r) :
    openSeq d' o s = some r := by
  unfold openSeq at hr ⊢
  split at hr
  · obtain ⟨x, hx, rfl⟩ := Option.map_eq_some_iff.1 hr
    unfold H5.SeqFile.open at hx ⊢
    obtain ⟨f, hf, hx⟩ := Option.bind_eq_some_iff.1 hx
    simp only [Option.bind_eq_bind]
    rw [h.hdf hf]
    simp only [Option.bind_some]
    rw [show ((H5.partKeys f.keys o.part o.parts false).bind fun ks => pure (H5.SeqFile.mk (some f) ks 0)) = some x from hx]
    rfl
  · split at hr
    · simp at hr
    · rename_i h1
      obtain ⟨x, hx, rfl⟩ := Option.map_eq_some_iff.1 hr
      simp [h1, h.bin hx]
  · obtain ⟨x, hx, hr⟩ := Option.bind_eq_some_iff.1 hr
    obtain ⟨t, ht, hx⟩ := Option.bind_eq_some_iff.1 hx
    simp only [h.txt ht, Option.bind_some, hx]
    exact hr
  · obtain ⟨x, hx, hr⟩ := Option.bind_eq_some_iff.1 hr
    obtain ⟨t, ht, hx⟩ := Option.bind_eq_some_iff.1 hx
    simp only [h.txt ht, Option.bind_some, hx]
    exact hr

theorem openSeqStr_ext {d d' : Disk} (h : Ext d d') {o : ROpts} {s : Str} {r : Rd} (hr : openSeqStr d o s = some r) :
    openSeqStr d' o s = some r := by
  unfold openSeqStr at hr ⊢
  obtain ⟨x, hx, hr⟩ := Option.bind_eq_some_iff.1 hr
  rw [rCreate_ext (fun p c hc => h.firstLine hc) hx]
  exact openSeq_ext h hr

theorem loopG_ext {R X : Type} {one one' : R → Option (X × R)} {left : R → Nat}
    (h : ∀ r p, one r = some p → one' r = some p) {k : Nat} {r : R} {p : List X × R} (hr : loopG one left k r = some p) :
    loopG one' left k r = some p := by
  induction k generalizing r p with
  | zero => exact hr
  | succ k ih =>
    simp only [loopG] at hr ⊢
    split at hr
    · rename_i h0; rw [if_pos h0]; exact hr
    · rename_i h0
      rw [if_neg h0]
      obtain ⟨x, hx, hr⟩ := Option.bind_eq_some_iff.1 hr
      obtain ⟨q, hq, rfl⟩ := Option.map_eq_some_iff.1 hr
      rw [h _ _ hx, Option.bind_some, ih hq]
      rfl

theorem Pending.ext {e : Env} {d d' : Disk} (h : Ext d d') {items : List (Str × Nd)} {r : Rd} (hp : Pending e d items r) :
    Pending e d' items r := by
  cases r with
  | arkFile r => exact hp
  | h5File r => exact hp
  | arkScp r =>
    obtain ⟨hc, r', hr⟩ := hp
    refine ⟨hc, r', loopG_ext ?_ hr⟩
    intro r p ho
    unfold ScpReader.readOne at ho ⊢
    simp only [Option.bind_eq_bind, Option.bind_eq_some_iff] at ho
    obtain ⟨g, hg, q, hq, cs, hcs, rest⟩ := ho
    simp only [Option.bind_eq_bind]
    rw [hg, Option.bind_some, hq, Option.bind_some]
    have : Kaldi.openArchive d'.bin r.opened g.2.1 g.2.2.1 = some cs := by
      unfold Kaldi.openArchive at hcs ⊢
      rcases hop : r.opened with _ | ⟨p, c, rr⟩
      · simp only [hop, Option.bind_eq_bind] at hcs ⊢
        obtain ⟨a, ha, hcs⟩ := Option.bind_eq_some_iff.1 hcs
        obtain ⟨b, hb, rfl⟩ := Option.map_eq_some_iff.1 ha
        rw [h.bin hb]; exact hcs
      · simp only [hop, Option.bind_eq_bind] at hcs ⊢
        split at hcs
        · rename_i hpp; rw [if_pos hpp]; exact hcs
        · rename_i hpp
          rw [if_neg hpp]
          obtain ⟨a, ha, hcs⟩ := Option.bind_eq_some_iff.1 hcs
          obtain ⟨b, hb, rfl⟩ := Option.map_eq_some_iff.1 ha
          rw [h.bin hb]; exact hcs
    rw [this, Option.bind_some]
    obtain ⟨k, hk, ms, hms, rest⟩ := rest
    rw [hk, Option.bind_some, hms, Option.bind_some]
    exact rest
  | h5Scp r =>
    obtain ⟨hc, r', hr⟩ := hp
    refine ⟨hc, r', loopG_ext ?_ hr⟩
    intro r p ho
    unfold H5.SeqScript.readOne at ho ⊢
    simp only [Option.bind_eq_bind, Option.bind_eq_some_iff] at ho
    obtain ⟨g, hg, o, h_o, n, hn, q, hq, f, hf, rest⟩ := ho
    simp only [Option.bind_eq_bind]
    obtain rfl := Option.some.inj (h_o.symm.trans hn)
    rw [hg, Option.bind_some, h_o, Option.bind_some, Option.bind_some, hq, Option.bind_some]
    have : H5.openArchive d'.hdf r.opened g.2.1 = some f := by
      unfold H5.openArchive at hf ⊢
      rcases hop : r.opened with _ | ⟨p, c⟩
      · simp only [hop] at hf ⊢; exact h.hdf hf
      · simp only [hop] at hf ⊢
        split at hf
        · rename_i hpp; rw [if_pos hpp]; exact h.hdf hf
        · rename_i hpp; rw [if_neg hpp]; exact hf
    rw [this, Option.bind_some]
    obtain ⟨dd, hd, k, hk, m, hm, rest⟩ := rest
    rw [hd, Option.bind_some, hk, Option.bind_some, hm, Option.bind_some]
    exact rest

/-- copying one input writes its records. -/
theorem copyInput_readable {e : Env} {d d' : Disk} (hext : Ext d d') {ro : ROpts} {s : Str} {items : List (Str × Nd)}
    (h : Readable e d ro s items) (o : WOpts) (path : Str) (chunk : Nat) (w : Wr) :
    copyInput e d' ro o path chunk w s = w.write o path items := by
  obtain ⟨r, r', h1, h2, h3⟩ := h
  have hst : Start r := by
    obtain ⟨x, hx, hr⟩ := Option.bind_eq_some_iff.1 h1
    exact openSeq_start hr
  obtain ⟨hp, hf⟩ := pending_of_read hst h3 h2
  unfold copyInput
  rw [openSeqStr_ext hext h1, Option.bind_some]
  exact copyLoop_pending e d' o path chunk r.fuel items hf r (hp.ext hext) w

theorem copyInputs_readable {e : Env} {d d' : Disk} (hext : Ext d d') {ro : ROpts} {inputs : List Str}
    {blocks : List (List (Str × Nd))} (h : List.Forall₂ (Readable e d ro) inputs blocks) (o : WOpts) (path : Str) (chunk : Nat)
    (w : Wr) : inputs.foldlM (copyInput e d' ro o path chunk) w = w.write o path blocks.flatten := by
  induction h generalizing w with
  | nil => rfl
  | cons h1 _ ih =>
    rw [List.foldlM_cons, List.flatten_cons, Wr.write_append, copyInput_readable hext h1]
    congr 1
    funext w'
    exact ih w'

/-! ### writing -/

theorem write_ark (o : WOpts) (path : Str) (items : List (Str × Nd)) (km : Nd → KMat)
    (h : ∀ it ∈ items, o.conv it.2 = some (km it.2)) (w : ArkWriter) :
    (Wr.ark w).write o path items = (w.write o.sep path (items.map (fun it => (it.1, km it.2)))).map .ark := by
  induction items generalizing w with
  | nil => rfl
  | cons it items ih =>
    unfold Wr.write ArkWriter.write at *
    rw [List.foldlM_cons, List.map_cons, List.foldlM_cons]
    simp only [Wr.writeOne, h it (by simp), Option.bind_some, Option.bind_eq_bind]
    rcases w.writeOne o.sep path (it.1, km it.2) with _ | w'
    · rfl
    · simp only [Option.map_some, Option.bind_some]
      exact ih (fun x hx => h x (by simp [hx])) w'

theorem write_h5 (o : WOpts) (path : Str) (items : List (Str × Nd)) (km : Nd → KMat)
    (h : ∀ it ∈ items, o.conv it.2 = some (km it.2)) (w : H5.Writer) :
    (Wr.h5 w).write o path items = (w.write o.sep path (items.map (fun it => (it.1, km it.2)))).map .h5 := by
  induction items generalizing w with
  | nil => rfl
  | cons it items ih =>
    unfold Wr.write H5.Writer.write at *
    rw [List.foldlM_cons, List.map_cons, List.foldlM_cons]
    simp only [Wr.writeOne, h it (by simp), Option.bind_some, Option.bind_eq_bind]
    rcases w.writeOne o.sep path (it.1, km it.2) with _ | w'
    · rfl
    · simp only [Option.map_some, Option.bind_some]
      exact ih (fun x hx => h x (by simp [hx])) w'

/-- the files a write specifier creates. -/
def outputs (s : WSpecifier) : List Str := s.archive.toList ++ s.script.toList

/-- the disk when the outputs have just been created. -/
def created (d : Disk) (s : WSpecifier) (a : Str) : Disk :=
  (d.set a (if s.archiveType = some .h5 then none else some (.bin []))).setScript s.script []

theorem set_of_ne {d : Disk} {p q : Str} {c : Option Content} (h : q ≠ p) : d.set p c q = d q := by simp [Disk.set, h]

theorem set_self {d : Disk} {p : Str} {c : Option Content} : d.set p c p = c := by simp [Disk.set]

theorem setScript_of_ne {d : Disk} {sc : Option Str} {t q : Str} (h : q ∉ sc.toList) : d.setScript sc t q = d q := by
  cases sc with
  | none => rfl
  | some p => exact set_of_ne (by simpa using h)

theorem created_of_ne {d : Disk} {s : WSpecifier} {a q : Str} (ha : q ≠ a) (hs : q ∉ s.script.toList) :
    created d s a q = d q := by
  unfold created
  rw [setScript_of_ne hs, set_of_ne ha]

theorem ext_created {d : Disk} {s : WSpecifier} {a : Str} (ha : s.archive = some a) :
    Ext (without d (outputs s)) (created d s a) := by
  intro p c h
  unfold without at h
  split at h
  · simp at h
  · rename_i hn
    simp only [outputs, ha, Option.toList_some, List.singleton_append, List.mem_cons, not_or] at hn
    rw [created_of_ne hn.1 hn.2]; exact h

/-- what the copy does to the disk: the records of all inputs, in order, are given to the writer. -/
theorem copyFeats_eq {e : Env} {d : Disk} {ro : ROpts} {inputs : List Str} {blocks : List (List (Str × Nd))} {output : Str}
    {s : WSpecifier} {a : Str} (hs : wCreate output = some s) (ha : s.archive = some a) (hty : s.specType ≠ .script)
    (hdir : '/' ∈ a) (hscr : ∀ q ∈ s.script, '/' ∈ q) (hbin : s.archiveType = some .h5 ∨ s.binary = true)
    (hin : List.Forall₂ (Readable e (without d (outputs s)) ro) inputs blocks) (hp : ro.parts ≤ 1 ∨ inputs.length ≤ 1)
    (o : WOpts) (chunk : Nat) :
    copyFeats e d ro o inputs output chunk =
      ((if s.archiveType = some .h5 then Wr.h5 (H5.Writer.new s.script.isSome) else Wr.ark ⟨[], []⟩).write o a blocks.flatten).map
        (Wr.close (created d s a) a s.script) := by
  have hsc : scriptOk s.script = true := by
    rcases hx : s.script with _ | q
    · rfl
    · simp only [scriptOk, dirOk, List.contains_iff_mem]; exact hscr q hx
  have hdo : dirOk a = true := by simpa [dirOk] using hdir
  have how : openWriter d s = some (if s.archiveType = some .h5 then Wr.h5 (H5.Writer.new s.script.isSome) else Wr.ark ⟨[], []⟩,
      created d s a) := by
    have h1 : openWriter d s = openArchiveWriter d s a := by
      unfold openWriter
      rw [ha]
      rcases hh : s.specType with _ | _ | _
      · rfl
      · exact absurd hh hty
      · rfl
    rw [h1]
    unfold openArchiveWriter created
    rw [hdo, hsc]
    simp only [Bool.and_self, if_true]
    rcases hh : s.archiveType with _ | _ | _
    · rcases hbin with hb | hb
      · rw [hh] at hb; simp at hb
      · simp [hb]
    · simp
    · rcases hbin with hb | hb
      · rw [hh] at hb; simp at hb
      · simp [hb]
  unfold copyFeats
  have hcond : (decide (1 < ro.parts) && decide (1 < inputs.length)) = false := by
    rcases hp with h | h <;> simp <;> omega
  rw [hcond]
  simp only [Bool.false_eq_true, if_false, hs, Option.bind_some, how, ha, Option.getD_some]
  rw [copyInputs_readable (ext_created ha) hin]

end Hyp.Copy
