import Verif.Copy.Prefix

/-! Concrete cases for C123-C126: a disk with one HDF5 file of two records. -/

namespace Hyp.Copy
open Hyp.Text Hyp.Kaldi Hyp.Spec

def exPath : Str := ['.', '/', 'f']
def exOut : Str := ['.', '/', 'o']
def exScr : Str := ['.', '/', 's']
def exB : Nd := .vec .f32 [[1, 0, 0, 0], [2, 0, 0, 0]]
def exA : Nd := .mat .f32 1 [[[3, 0, 0, 0]], [[4, 0, 0, 0]]]
def exFile : H5.File := ⟨[([['b']], .plain exB), ([['a']], .plain exA)]⟩
def exDisk : Disk := fun p => if p = exPath then some (.hdf exFile) else none
def exItems : List (Str × Nd) := [(['a'], exA), (['b'], exB)]
/-- no conversion (arrays already in float32, no compression). -/
def exW : WOpts := ⟨' ', fun v => some (.plain v)⟩
def exSpec : WSpecifier := ⟨.both, some exOut, some exScr, some .ark, true, false, false⟩

theorem exPathOk : Spec.PathOk exPath ∧ Spec.PathOk exOut ∧ Spec.PathOk exScr := by
  refine ⟨⟨?_, ?_, ?_, ?_, ?_⟩, ⟨?_, ?_, ?_, ?_, ?_⟩, ⟨?_, ?_, ?_, ?_, ?_⟩⟩ <;> decide

theorem exReadable (e : Env) (d : Disk) (h : d exPath = some (.hdf exFile)) :
    Readable e d plainOpts ("h5:".toList ++ exPath) exItems := by
  refine ⟨.h5File ⟨some exFile, [['a'], ['b']], 0⟩, .h5File ⟨some exFile, [['a'], ['b']], 2⟩, ?_, ?_, trivial⟩
  · unfold openSeqStr
    rw [rCreate_h5 _ exPathOk.1, Option.bind_some]
    simp only [openSeq]
    unfold H5.SeqFile.open
    rw [hdf_of h]
    rfl
  · rfl

theorem exOutDisk (ps : List Str) (h : exPath ∉ ps) : without exDisk ps exPath = some (.hdf exFile) := by
  simp [without, h, exDisk]

theorem exKeys : (∀ it ∈ exItems, isToken it.1 = true) ∧ (∀ it ∈ exItems, H5.PlainKey it.1) := by
  constructor
  · decide
  · intro it hit
    simp only [exItems, List.mem_cons, List.not_mem_nil, or_false] at hit
    rcases hit with rfl | rfl <;> exact ⟨by decide, by decide, by decide⟩

theorem exValue (D : Decoder) : ∀ it ∈ exItems, ∃ km, exW.conv it.2 = some km ∧ km.Value D (id it.2) := by
  intro it hit
  simp only [exItems, List.mem_cons, List.not_mem_nil, or_false] at hit
  rcases hit with rfl | rfl
  · exact ⟨_, rfl, .plain _ (by simp [exA, exB, Nd.WF, Dt.size]) (Or.inl rfl) (by simp [exA, exB, Nd.SizesOk, Nd.shape])⟩
  · exact ⟨_, rfl, .plain _ (by simp [exA, exB, Nd.WF, Dt.size]) (Or.inl rfl) (by simp [exA, exB, Nd.SizesOk, Nd.shape])⟩

theorem exGiven (D : Decoder) : ∀ it ∈ exItems, ∃ km, exW.conv it.2 = some km ∧ H5.Given D km (id it.2) := by
  intro it hit
  simp only [exItems, List.mem_cons, List.not_mem_nil, or_false] at hit
  rcases hit with rfl | rfl
  · exact ⟨_, rfl, .plain _⟩
  · exact ⟨_, rfl, .plain _⟩

theorem exCreate : wCreate ("ark,scp:".toList ++ (exOut ++ ',' :: exScr)) = some exSpec := by decide

/-- C123: the HDF5 file given twice, copied to an ark archive with script, in chunks of one record. -/
example (e : Env) : ∃ d', copyFeats e exDisk plainOpts exW ["h5:".toList ++ exPath, "h5:".toList ++ exPath]
      ("ark,scp:".toList ++ (exOut ++ ',' :: exScr)) 1 = some d' ∧ d' exPath = some (.hdf exFile) ∧
    Readable e d' plainOpts ("ark:".toList ++ exOut) (exItems ++ exItems) ∧
    Readable e d' plainOpts ("scp:".toList ++ exScr) (exItems ++ exItems) := by
  have hfl : [exItems, exItems].flatten = exItems ++ exItems := rfl
  have hmem : ∀ it ∈ [exItems, exItems].flatten, it ∈ exItems := by intro it h; simpa [hfl] using h
  have hr := exReadable e (without exDisk [exOut, exScr]) (exOutDisk _ (by decide))
  obtain ⟨d', h1, h2, h3, h4⟩ := C123_copy_to_ark e exDisk plainOpts exW _ [exItems, exItems] _ exSpec exOut 1 id exCreate rfl
    (by decide) rfl rfl (by decide) (by decide) exPathOk.2.1 (.cons hr (.cons hr .nil)) (Or.inl (by decide))
    (fun it h => exKeys.1 it (hmem it h)) (fun it h => exValue e.D it (hmem it h))
  have hid : [exItems, exItems].flatten.map (fun it => (it.1, id it.2)) = exItems ++ exItems := rfl
  rw [hid] at h3 h4
  refine ⟨d', h1, by rw [h2 _ (by decide) (by decide)]; rfl, h3 e.pk, h4 exScr rfl exPathOk.2.2 rfl ?_ (by decide) (by decide) e.pk⟩
  refine ⟨?_, by decide⟩
  refine ⟨by decide, by decide, by decide, by decide, by decide, ?_⟩
  simp [exOut]; decide

/-- C123: copied to another HDF5 file; given twice it raises. -/
example (e : Env) : ∃ d', copyFeats e exDisk plainOpts exW ["h5:".toList ++ exPath] ("h5:".toList ++ exOut) 0 = some d' := by
  have hr := exReadable e (without exDisk [exOut]) (exOutDisk _ (by decide))
  obtain ⟨d', _, h1, _⟩ := C123_copy_to_h5 e exDisk plainOpts exW _ [exItems] _ _ exOut 0 id (wCreate_h5 exPathOk.2.1) rfl
    (by decide) rfl (by decide) (by simp) exPathOk.2.1 (.cons hr .nil) (Or.inl (by decide))
    (fun it h => exKeys.2 it (by simpa using h)) (by decide) (fun it h => exGiven e.D it (by simpa using h))
  exact ⟨d', h1⟩

example (e : Env) : copyFeats e exDisk plainOpts exW ["h5:".toList ++ exPath, "h5:".toList ++ exPath] ("h5:".toList ++ exOut) 0 = none := by
  have hr := exReadable e (without exDisk [exOut]) (exOutDisk _ (by decide))
  exact C123_duplicate_key_h5_raises e exDisk plainOpts exW _ [exItems, exItems] _ _ exOut 0 id (wCreate_h5 exPathOk.2.1) rfl
    (by decide) rfl (by decide) (by simp) (.cons hr (.cons hr .nil)) (Or.inl (by decide))
    (fun it h => exKeys.2 it (by simpa using h)) (by decide) (fun it h => exGiven e.D it (by simpa using h))

/-- C124: the archive that is emptied had records. -/
example (e : Env) : ∃ (d d' : Disk) (items : List (Str × Nd)), items ≠ [] ∧ Readable e d plainOpts ("ark:".toList ++ exOut) items ∧
    copyFeats e d plainOpts exW ["ark:".toList ++ exOut] ("ark:".toList ++ exOut) 1 = some d' ∧
    Readable e d' plainOpts ("ark:".toList ++ exOut) [] := by
  have hr := exReadable e (without exDisk [exOut]) (exOutDisk _ (by decide))
  obtain ⟨d, h1, h2, h3, _⟩ := C123_copy_to_ark e exDisk plainOpts exW _ [exItems] _ _ exOut 1 id (wCreate_ark exPathOk.2.1) rfl
    (by decide) rfl rfl (by decide) (by simp) exPathOk.2.1 (.cons hr .nil) (Or.inl (by decide))
    (fun it h => exKeys.1 it (by simpa using h)) (fun it h => exValue e.D it (by simpa using h))
  obtain ⟨d', g1, _, _, g4⟩ := C124_in_place_empties e d plainOpts exW exOut 1 exPathOk.2.1 (by decide) (by decide)
  exact ⟨d, d', _, by simp [exItems], h3 e.pk, g1, g4 e.pk⟩

/-- C125: the file in three parts, the first of them empty. -/
example (e : Env) : ∃ blocks, List.Forall₂ (fun i block => Readable e exDisk ⟨none, ' ', i, 3⟩ ("h5:".toList ++ exPath) block)
      [1, 2, 3] blocks ∧ blocks.flatten = exItems :=
  C125_parts e exDisk none ' ' _ _ exItems 3 (by decide) (rCreate_h5 _ exPathOk.1) (Or.inr rfl) (by simp)
    (exReadable e exDisk (by simp [exDisk]))

/-- a script of two entries that name the HDF5 file by its bare name `f`. -/
def exScript : Str := ['b', ' ', 'f', '\n', 'a', ' ', 'f', '\n']
def exDiskP : Disk := fun p => if p = exPath then some (.hdf exFile) else if p = exScr then some (.txt exScript) else none
def exDiskQ : Disk := fun p => if p = ['f'] then some (.hdf exFile) else if p = exScr then some (.txt exScript) else none

/-- C127: with the prefix `./` the two entries are found and read. -/
example (e : Env) : ((openSeqStr exDiskP ⟨some ['.', '/'], ' ', 1, 1⟩ ("scp:".toList ++ exScr)).bind (fun r => r.read e exDiskP 0)).map (·.1) =
    some [(['b'], exB), (['a'], exA)] := by
  have hty : ∀ d : Disk, d exScr = some (.txt exScript) → scriptArchiveType d.firstLine exScr = some .h5 := by
    intro d h
    have : d.firstLine exScr = some ['b', ' ', 'f', '\n'] := by
      unfold Disk.firstLine; rw [txt_of h]; rfl
    unfold scriptArchiveType
    rw [this]; rfl
  have h1 := rCreate_scp exDiskP.firstLine exPathOk.2.2 (hty _ rfl)
  have h2 := rCreate_scp exDiskQ.firstLine exPathOk.2.2 (hty _ rfl)
  refine (C127_prefix_sequential e exDiskP exDiskQ ['.', '/'] ' ' 1 1 _ _ h1 h2 rfl rfl ?_ 0).trans ?_
  · intro t x ht hx f hf
    obtain rfl : exScript = t := Option.some.inj (show some exScript = some t from ht)
    obtain rfl : (⟨[['b'], ['a']], [['f'], ['f']], none, none, none⟩ : Scp.Scp Str Str) = x := Option.some.inj (show some _ = some x from hx)
    simp at hf
    subst hf
    rfl
  · unfold openSeqStr
    rw [h2]
    rfl

/-- C126: a permissive reader of the HDF5 file, asked for a key it does not have. -/
example (e : Env) : ((rCreate exDisk.firstLine ("h5,p:".toList ++ exPath)).bind (openRand exDisk none ' ')).bind
    (fun r => r.read e exDisk [['z']]) = some [.vec .f32 []] := by
  have h1 : rCreate exDisk.firstLine ("h5,p:".toList ++ exPath) = some ⟨.archive, exPath, .h5, false, false, false, true, false⟩ := by
    exact (C28_read_spec_partial _ [.h5, .p] exPath (by simp) exPathOk.1).trans rfl
  have h2 : openRand exDisk none ' ' ⟨.archive, exPath, .h5, false, false, false, true, false⟩ = some (.h5File exPath exFile true) := rfl
  rw [h1, Option.bind_some, h2, Option.bind_some]
  refine (C126_missing_key e exDisk none ' ' _ _ _ h1 h2 ['z'] ⟨?_, by simp⟩).1 rfl
  intro _ f hf
  obtain rfl : exFile = f := Option.some.inj (show some exFile = some f from hf)
  decide

end Hyp.Copy
