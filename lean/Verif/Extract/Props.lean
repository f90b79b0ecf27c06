import Verif.Extract.Store
import Verif.H5.ListProps
import Verif.Copy.Examples

/-!
C168: the scripts that run a network on every sequence.

The specification: an input `Source` has the records `items`; the network gives for each array a vector; the output has
one record per record of the input, with its key, in the same order.
-/

namespace Hyp.Extract
open Hyp.Text Hyp.Kaldi Hyp.Spec Hyp.Copy

/-- what a reader that was just opened has in front of it: an ark archive with these records; a list whose entries show
these arrays; HDF5 datasets with these keys. -/
def Holding (e : Env) (d : Disk) (items : List (Str × Nd)) : Rd → Prop
  | .arkFile r => EncS e.D items r.content
  | .arkScp r => ScpHas e.D d.bin r.scp items
  | .h5File r => ∃ f, r.f = some f ∧ r.keys = items.map (·.1) ∧
      ∀ it ∈ items, ∃ ds, f.get it.1 = some ds ∧ H5.Stored e.D ds it.2
  | .h5Scp r => ∃ (es : List H5.Entry) (rg : H5.Entry → Nat × Nat), H5.ScpHolds e.D d.hdf r.scp es ∧
      (∀ en ∈ es, en.HasRows (rg en).1 (rg en).2) ∧
      items = es.map (fun en => (en.key, H5.rowsOf (rg en).1 (rg en).2 en.array))

/-- the specifier `s` names an input with the records `items`. -/
def Source (e : Env) (d : Disk) (ro : ROpts) (s : Str) (items : List (Str × Nd)) : Prop :=
  ∃ r, openSeqStr d ro s = some r ∧ Holding e d items r

/-- the specifier names a script file. -/
def IsScript (d : Disk) (s : Str) : Prop := ∃ sp, rCreate d.firstLine s = some sp ∧ sp.specType = .script

/-! ### lemmas -/

/-- a reader of a script file. -/
def scriptRd : Rd → Bool
  | .arkFile _ | .h5File _ => false
  | .arkScp _ | .h5Scp _ => true

theorem sameDim_map (l : List (Str × Nd)) :
    (H5.sameDim (l.map (fun p => p.2.shape.map Int.ofNat)) = true) ↔ l ≠ [] ∧ SameWidth l := by
  have hw : ∀ v : Nd, (v.shape.map Int.ofNat).getLast? = some (v.width : Int) := by
    intro v; cases v <;> rfl
  rcases l with _ | ⟨p, l⟩
  · simp [H5.sameDim]
  · simp only [H5.sameDim, List.map_cons, List.map_map, List.all_map, List.all_eq_true, ne_eq, reduceCtorEq,
      not_false_eq_true, true_and, SameWidth, List.mem_cons, Function.comp_def, hw, beq_iff_eq, Option.some.injEq, Nat.cast_inj]
    constructor
    · intro h a ha b hb
      have h1 : ∀ q, q = p ∨ q ∈ l → q.2.width = p.2.width := by
        intro q hq
        rcases hq with rfl | hq
        · rfl
        · exact h q hq
      rw [h1 a ha, h1 b hb]
    · intro h q hq
      exact h q (Or.inr hq) p (Or.inl rfl)

theorem empty_or {l : List (Str × Nd)} : ((!(l.map (fun it => (it.1, it.2.shape.map Int.ofNat))).isEmpty &&
    !H5.sameDim (((l.map (fun it => (it.1, it.2.shape.map Int.ofNat))).map (·.2)))) = true) ↔ ¬ SameWidth l := by
  rw [List.map_map]
  have h := sameDim_map l
  simp only [Bool.and_eq_true, Bool.not_eq_true', ← Bool.not_eq_true, List.isEmpty_iff, List.map_eq_nil_iff]
  rw [show ((fun x : Str × List Int => x.2) ∘ fun it : Str × Nd => (it.1, it.2.shape.map Int.ofNat)) =
    (fun p : Str × Nd => p.2.shape.map Int.ofNat) from rfl, h]
  constructor
  · rintro ⟨h1, h2⟩ h3; exact h2 ⟨h1, h3⟩
  · intro h1
    refine ⟨?_, fun h2 => h1 h2.2⟩
    rintro rfl
    exact h1 sameWidth_nil

theorem holding_read {e : Env} {d : Disk} {items : List (Str × Nd)} {r : Rd} (h : Holding e d items r) (hs : Start r)
    (hfr : reset r = r) :
    (∃ r', r.read e d 0 = some (items, r')) ∧ Sound e r ∧
      ((numRows e d r).isSome = true ↔ SameWidth items ∧
        (scriptRd r = true → items ≠ [])) := by
  cases r with
  | arkFile r =>
    have hat : ArkAt e.D items 0 false r := ⟨h, by rw [hs.1]; exact h, hs.2⟩
    obtain ⟨r2, h1, h2, h3⟩ := ark_both hat e.pk 0
    refine ⟨⟨.arkFile r2, ?_⟩, ⟨_, h⟩, ?_⟩
    · simp only [Rd.read, h1, Option.map_some]; simp [batch]
    · simp only [numRows, seqNumRows, h2 true, Option.map_some, Option.bind_some, batch, if_true, List.drop_zero, true_and, scriptRd,
        Bool.false_eq_true, false_implies, and_true]
      split
      · rename_i hw; simp [passed, hw]
      · rename_i hw; simp only [not_not] at hw; simp [passed, hw]
  | arkScp r =>
    have hc0 : r.cur = 0 := hs
    have hop : r.opened = none := by
      simp only [reset, ScpReader.reset, Rd.arkScp.injEq] at hfr
      rw [← hfr]
    have hat : ScpAt d.bin r.scp items.length 0 r := ⟨rfl, hc0, by rw [hop]; trivial, Nat.zero_le _⟩
    obtain ⟨⟨r2, h1, _⟩, ⟨r3, h2, _⟩⟩ := scp_both h hat e.pk 0
    refine ⟨⟨.arkScp r2, ?_⟩, trivial, ?_⟩
    · simp only [Rd.read, h1, Option.map_some]; simp [batch]
    · simp only [numRows, seqNumRows, h2 true, Option.map_some, Option.bind_some, batch, if_true, List.drop_zero, true_and]
      split
      · rename_i hw
        simp only [passed, Option.map_none, Option.isSome_none, Bool.false_eq_true, false_iff, not_and]
        intro h3 h4
        have h4 := h4 rfl
        rcases hw with hw | hw
        · exact hw h3
        · exact h4 hw
      · rename_i hw
        rw [not_or, not_not] at hw
        simp [passed, hw]
  | h5File r =>
    obtain ⟨f, hf, hk, hget⟩ := h
    have hc0 : r.cur = 0 := hs
    have hr : r = ⟨some f, items.map (·.1), 0⟩ := by cases r; simp_all
    have hlen : r.keys.length = items.length := by rw [hk]; simp
    refine ⟨?_, trivial, ?_⟩
    · refine ⟨.h5File { r with cur := r.cur + min (r.keys.length - r.cur) (items.length - r.cur) }, ?_⟩
      simp only [Rd.read, H5.SeqFile.read, if_true]
      rw [H5.seqFile_loop id _ _ hget _ _ r hf hk (by omega), H5.itemRows_whole]
      simp only [Option.map_some, hc0, List.drop_zero, Nat.sub_zero, hlen, List.take_length, id]
      simp
    · have hl := H5.seqFile_shapeLoop hget items.length r hf hk (by omega)
      simp only [numRows, H5.SeqFile.readShapes, if_true, hlen, hc0, Nat.sub_zero, hl]
      simp only [Option.bind_eq_bind, Option.bind_some, hc0, List.drop_zero, List.take_length, Bool.true_and, scriptRd,
        Bool.false_eq_true, false_implies, and_true]
      have hw := empty_or (l := items)
      split
      · rename_i h; simp [hw.1 h]
      · rename_i h; simp [not_not.1 (fun h1 => h (hw.2 h1))]
  | h5Scp r =>
    obtain ⟨es, rg, hsc, hrg, rfl⟩ := h
    have hc0 : r.cur = 0 := hs
    have hop : r.opened = none := by
      simp only [reset, H5.SeqScript.reset, Rd.h5Scp.injEq] at hfr
      rw [← hfr]
    have hlen : r.scp.key.length = es.length := by simp [hsc.key]
    refine ⟨?_, trivial, ?_⟩
    · obtain ⟨ms, r1, r2, h1, _, _, h4⟩ := H5.C98_read_shapes e.D d.hdf es rg r hrg hsc (by rw [hop]; intro p f h; cases h) (by omega) 0
      refine ⟨.h5Scp r1, ?_⟩
      simp only [Rd.read, h1, Option.map_some, h4, hc0]
      simp [H5.advance]
    · obtain ⟨o, hl, _⟩ := H5.seqScript_shapeLoop d.hdf rg hrg es.length r hsc (by rw [hop]; intro p f h; cases h) (by omega)
      simp only [numRows, H5.SeqScript.readShapes, if_true, hlen, hc0, Nat.sub_zero, hl]
      have hw := sameDim_map (es.map (fun en => (en.key, H5.rowsOf (rg en).1 (rg en).2 en.array)))
      rw [List.map_map] at hw
      simp only [Option.bind_eq_bind, Option.bind_some, hc0, List.drop_zero, List.take_length, Bool.true_and, scriptRd,
        true_implies, List.map_map]
      split
      · rename_i h
        simp only [Bool.not_eq_true', ← Bool.not_eq_true] at h
        simp only [Option.map_none, Option.isSome_none, Bool.false_eq_true, false_iff]
        rintro ⟨h1, h2⟩
        exact h (hw.2 ⟨h2, h1⟩)
      · rename_i h
        simp only [Bool.not_eq_true', ← Bool.not_eq_true, not_not] at h
        have := hw.1 h
        simp only [Option.map_some, Option.isSome_some, true_iff]
        exact ⟨this.2, this.1⟩

theorem source_opened {e : Env} {d : Disk} {ro : ROpts} {s : Str} {items : List (Str × Nd)} (h : Source e d ro s items) :
    Input e d ro s items ∧ (((openSeqStr d ro s).bind (numRows e d)).isSome = true ↔
      SameWidth items ∧ (IsScript d s → items ≠ [])) := by
  obtain ⟨r, h1, h2⟩ := h
  obtain ⟨sp, hsp, ho⟩ := Option.bind_eq_some_iff.1 h1
  obtain ⟨⟨r', h3⟩, h4, h5⟩ := holding_read h2 (openSeq_start ho) (open_reset ho).1
  refine ⟨⟨r, r', h1, h3, h4⟩, ?_⟩
  rw [h1, Option.bind_some, h5]
  have : scriptRd r = true ↔ IsScript d s := by
    unfold IsScript
    rw [hsp]
    simp only [Option.some.injEq, exists_eq_left']
    unfold openSeq at ho
    split at ho
    · rename_i h6 _
      obtain ⟨x, hx, rfl⟩ := Option.map_eq_some_iff.1 ho; simp [scriptRd, h6]
    · rename_i h6 _
      split at ho
      · simp at ho
      · obtain ⟨x, hx, rfl⟩ := Option.map_eq_some_iff.1 ho; simp [scriptRd, h6]
    · rename_i h6 _
      obtain ⟨x, _, ho⟩ := Option.bind_eq_some_iff.1 ho
      obtain ⟨y, hy, rfl⟩ := Option.map_eq_some_iff.1 ho; simp [scriptRd, h6]
    · rename_i h6 _
      obtain ⟨x, _, ho⟩ := Option.bind_eq_some_iff.1 ho
      obtain ⟨y, hy, rfl⟩ := Option.map_eq_some_iff.1 ho; simp [scriptRd, h6]
  rw [this]

theorem mapM_rows {items : List (Str × Nd)} {f : Nd → Option Nd} {l : List (Str × Nd)}
    (h : items.mapM (fun x : Str × Nd => (f x.2).map (fun y => (x.1, y))) = some l) :
    l.map (·.1) = items.map (·.1) ∧ ∀ y ∈ l, ∃ x ∈ items, x.1 = y.1 ∧ f x.2 = some y.2 := by
  induction items generalizing l with
  | nil => obtain rfl := Option.some.inj h; simp
  | cons x items ih =>
    rw [List.mapM_cons] at h
    obtain ⟨y, hy, h⟩ := Option.bind_eq_some_iff.1 h
    obtain ⟨l', hl, h⟩ := Option.bind_eq_some_iff.1 h
    obtain rfl := Option.some.inj h
    obtain ⟨z, hz, rfl⟩ := Option.map_eq_some_iff.1 hy
    obtain ⟨h1, h2⟩ := ih hl
    refine ⟨by simp [h1], ?_⟩
    intro w hw
    rcases List.mem_cons.1 hw with rfl | hw
    · exact ⟨x, by simp, rfl, hz⟩
    · obtain ⟨v, hv, h3⟩ := h2 w hw
      exact ⟨v, by simp [hv], h3⟩

theorem mapM_rows_total {items : List (Str × Nd)} {f : Nd → Option Nd} {g : Nd → Nd} (h : ∀ it ∈ items, f it.2 = some (g it.2)) :
    items.mapM (fun x : Str × Nd => (f x.2).map (fun y => (x.1, y))) = some (items.map (fun it => (it.1, g it.2))) := by
  induction items with
  | nil => rfl
  | cons x items ih =>
    rw [List.mapM_cons, h x (by simp), ih (fun it hit => h it (by simp [hit]))]
    rfl

theorem mapM_rows_none {items : List (Str × Nd)} {f : Nd → Option Nd} (h : ∃ it ∈ items, f it.2 = none) :
    items.mapM (fun x : Str × Nd => (f x.2).map (fun y => (x.1, y))) = none := by
  rw [mapM_eq_none_iff]
  obtain ⟨it, h1, h2⟩ := h
  exact ⟨it, h1, by rw [h2]; rfl⟩

theorem job_rows {e : Env} {d : Disk} {ro : ROpts} {f : Nd → Option Nd} {input output : Str} {o : WOpts} {l : List (Str × Nd)}
    (h : rows e d ro f input = some l) : job e d ro o f input output = store d o output l := by
  unfold job; rw [h]

theorem job_done {e : Env} {d d' : Disk} {ro : ROpts} {f : Nd → Option Nd} {input output : Str} {o : WOpts}
    (h : job e d ro o f input output = .done d') : ∃ l, rows e d ro f input = some l ∧ store d o output l = .done d' := by
  unfold job at h
  split at h
  · cases h
  · rename_i l hl; exact ⟨l, hl, h⟩

theorem forall₂_mem {α β : Type} {R : α → β → Prop} {Q : β → Prop} {l : List α} {r : List β} (h : List.Forall₂ R l r)
    (hq : ∀ b ∈ r, Q b) : List.Forall₂ (fun a b => Q b ∧ R a b) l r := by
  induction h with
  | nil => exact .nil
  | cons h1 _ ih => exact .cons ⟨hq _ (by simp), h1⟩ (ih (fun b hb => hq b (by simp [hb])))

theorem rows_forall₂ {block : List (Str × Nd)} {f : Nd → Option Nd} {l : List (Str × Nd)}
    (hl : block.mapM (fun x : Str × Nd => (f x.2).map (fun y => (x.1, y))) = some l) :
    List.Forall₂ (fun (it : Str × Nd) y => f it.2 = some y) block (l.map (·.2)) := by
  induction block generalizing l with
  | nil => obtain rfl := Option.some.inj hl; exact .nil
  | cons x block ih =>
    rw [List.mapM_cons] at hl
    obtain ⟨y, hy, hl⟩ := Option.bind_eq_some_iff.1 hl
    obtain ⟨l', hl', hl⟩ := Option.bind_eq_some_iff.1 hl
    obtain rfl := Option.some.inj hl
    obtain ⟨z, hz, rfl⟩ := Option.map_eq_some_iff.1 hy
    exact .cons hz (ih hl')

/-! ## C168 -/

/-- One vector per sequence, to an ark archive: for any input whose arrays have the same number of columns (and, for a
script file, that is not empty) and for which the network gives a vector for each array, the job ends normally; the files
other than the outputs do not change - the input may be the file that is written -; the new archive, and its script file,
read through their specifiers, have one record for each record of the input, in the same order, with its key, and with
the vector of its array as the writer converts it (`val`). -/
theorem C168_extract_to_ark (e : Env) (d : Disk) (ro : ROpts) (o : WOpts) (input output : Str) (items : List (Str × Nd))
    (f : Nd → Option Nd) (g : Nd → Nd) (s : WSpecifier) (a : Str) (val : Nd → Nd)
    (hin : Source e d ro input items) (hw : ∀ p ∈ items, ∀ q ∈ items, p.2.shape.getLast? = q.2.shape.getLast?)
    (hne : IsScript d input → items ≠ []) (hf : ∀ it ∈ items, f it.2 = some (g it.2))
    (hs : wCreate output = some s) (ha : s.archive = some a) (hty : s.specType ≠ .script)
    (hark : s.archiveType = some .ark) (hbin : s.binary = true)
    (hdir : '/' ∈ a) (hscr : ∀ q ∈ s.script, '/' ∈ q ∧ q ≠ a) (hpath : Spec.PathOk a)
    (hk : ∀ it ∈ items, isToken it.1 = true)
    (hconv : ∀ it ∈ items, ∃ km, o.conv (g it.2) = some km ∧ km.Value e.D (val (g it.2))) :
    ∃ d', job e d ro o f input output = .done d' ∧
      (∀ p, p ≠ a → s.script ≠ some p → d' p = d p) ∧
      (∀ pk, Readable ⟨pk, e.D⟩ d' plainOpts ("ark:".toList ++ a) (items.map (fun it => (it.1, val (g it.2))))) ∧
      (∀ q, s.script = some q → Spec.PathOk q → o.sep = ' ' → Kaldi.PathOk ' ' a → ' ' ∉ a → items ≠ [] →
        ∀ pk, Readable ⟨pk, e.D⟩ d' plainOpts ("scp:".toList ++ q) (items.map (fun it => (it.1, val (g it.2))))) := by
  obtain ⟨h1, h2⟩ := source_opened hin
  have hw' : SameWidth items := by
    intro p hp q hq
    have := hw p hp q hq
    have key : ∀ v : Nd, v.shape.getLast? = some v.width := by intro v; cases v <;> rfl
    rw [key, key] at this
    exact Option.some.inj this
  have hr : rows e d ro f input = some (items.map (fun it => (it.1, g it.2))) := by
    rw [rows_input h1, ← mapM_rows_total hf]
    obtain ⟨x, hx⟩ := Option.isSome_iff_exists.1 (h2.2 ⟨hw', hne⟩)
    rw [hx, Option.bind_some]
  rw [job_rows hr]
  have := store_ark e.D d o (items.map (fun it => (it.1, g it.2))) output s a val hs ha hty hark hbin hdir hscr hpath
    (by intro it hit; obtain ⟨x, hx, rfl⟩ := List.mem_map.1 hit; exact hk x hx)
    (by intro it hit; obtain ⟨x, hx, rfl⟩ := List.mem_map.1 hit; exact hconv x hx)
  simpa only [List.map_map, Function.comp_def, ne_eq, List.map_eq_nil_iff] using this

/-- The same to an HDF5 archive, whose records come back in increasing order of key. -/
theorem C168_extract_to_h5 (e : Env) (d : Disk) (ro : ROpts) (o : WOpts) (input output : Str) (items : List (Str × Nd))
    (f : Nd → Option Nd) (g : Nd → Nd) (s : WSpecifier) (a : Str) (val : Nd → Nd)
    (hin : Source e d ro input items) (hw : ∀ p ∈ items, ∀ q ∈ items, p.2.shape.getLast? = q.2.shape.getLast?)
    (hne : IsScript d input → items ≠ []) (hf : ∀ it ∈ items, f it.2 = some (g it.2))
    (hs : wCreate output = some s) (ha : s.archive = some a) (hty : s.specType ≠ .script)
    (hh5 : s.archiveType = some .h5)
    (hdir : '/' ∈ a) (hscr : ∀ q ∈ s.script, '/' ∈ q ∧ q ≠ a) (hpath : Spec.PathOk a)
    (hk : ∀ it ∈ items, H5.PlainKey it.1) (hnd : (items.map (·.1)).Nodup)
    (hconv : ∀ it ∈ items, ∃ km, o.conv (g it.2) = some km ∧ H5.Given e.D km (val (g it.2))) :
    ∃ d' sorted, job e d ro o f input output = .done d' ∧
      (∀ p, p ≠ a → s.script ≠ some p → d' p = d p) ∧
      sorted.Perm (items.map (fun it => (it.1, val (g it.2)))) ∧ (sorted.map (·.1)).Pairwise (· < ·) ∧
      (∀ pk, Readable ⟨pk, e.D⟩ d' plainOpts ("h5:".toList ++ a) sorted) ∧
      (∀ q, s.script = some q → Spec.PathOk q → o.sep = ' ' → Kaldi.PathOk ' ' a → ' ' ∉ a → items ≠ [] →
        ∀ pk, Readable ⟨pk, e.D⟩ d' plainOpts ("scp:".toList ++ q) (items.map (fun it => (it.1, val (g it.2))))) := by
  obtain ⟨h1, h2⟩ := source_opened hin
  have hw' : SameWidth items := by
    intro p hp q hq
    have := hw p hp q hq
    have key : ∀ v : Nd, v.shape.getLast? = some v.width := by intro v; cases v <;> rfl
    rw [key, key] at this
    exact Option.some.inj this
  have hr : rows e d ro f input = some (items.map (fun it => (it.1, g it.2))) := by
    rw [rows_input h1, ← mapM_rows_total hf]
    obtain ⟨x, hx⟩ := Option.isSome_iff_exists.1 (h2.2 ⟨hw', hne⟩)
    rw [hx, Option.bind_some]
  rw [job_rows hr]
  have := store_h5 e.D d o (items.map (fun it => (it.1, g it.2))) output s a val hs ha hty hh5 hdir hscr hpath
    (by intro it hit; obtain ⟨x, hx, rfl⟩ := List.mem_map.1 hit; exact hk x hx)
    (by rw [List.map_map]; exact hnd)
    (by intro it hit; obtain ⟨x, hx, rfl⟩ := List.mem_map.1 hit; exact hconv x hx)
  simpa only [List.map_map, Function.comp_def, ne_eq, List.map_eq_nil_iff] using this

/-- When the arrays do not all have the same number of columns, or the network raises for one of them, or the input is an
empty script file (an empty archive is accepted), the job raises before it creates its outputs: no file changes, and
nothing is left of the vectors that were computed. -/
theorem C168_stops (e : Env) (d : Disk) (ro : ROpts) (o : WOpts) (input output : Str) (items : List (Str × Nd))
    (f : Nd → Option Nd) (hin : Source e d ro input items)
    (h : (∃ p ∈ items, ∃ q ∈ items, p.2.shape.getLast? ≠ q.2.shape.getLast?) ∨ (∃ it ∈ items, f it.2 = none) ∨
      (IsScript d input ∧ items = [])) :
    job e d ro o f input output = .untouched := by
  obtain ⟨h1, h2⟩ := source_opened hin
  have : rows e d ro f input = none := by
    rw [rows_input h1]
    have key : ∀ v : Nd, v.shape.getLast? = some v.width := by intro v; cases v <;> rfl
    rcases h with ⟨p, hp, q, hq, h⟩ | h | ⟨h, h'⟩
    · rcases hx : (openSeqStr d ro input).bind (numRows e d) with _ | x
      · rfl
      · rw [hx] at h2
        have := (h2.1 rfl).1 p hp q hq
        rw [key, key, this] at h
        exact absurd rfl h
    · rw [mapM_rows_none h]
      rcases (openSeqStr d ro input).bind (numRows e d) with _ | x <;> rfl
    · rcases hx : (openSeqStr d ro input).bind (numRows e d) with _ | x
      · rfl
      · rw [hx] at h2
        exact absurd h' ((h2.1 rfl).2 h)
  unfold job; rw [this]

/-- An archive that the ark writer made is such an input. -/
theorem C168_written_source (e : Env) (d : Disk) (sep : Char) (path a : Str) (items : List (Str × KMat × Nd))
    (hk : ∀ it ∈ items, isToken it.1 = true) (hv : ∀ it ∈ items, it.2.1.Value e.D it.2.2) (hpath : Spec.PathOk a)
    (w : ArkWriter) (hw : (ArkWriter.mk [] []).write sep path (items.map (fun it => (it.1, it.2.1))) = some w)
    (hd : d a = some (.bin w.ark)) :
    Source e d plainOpts ("ark:".toList ++ a) (items.map (fun it => (it.1, it.2.2))) ∧ ¬ IsScript d ("ark:".toList ++ a) := by
  obtain ⟨w2, bs, offs, hw2, ha, henc, _, _⟩ := write_specS sep path items hk hv ⟨[], []⟩
  obtain rfl := Option.some.inj (hw.symm.trans hw2)
  have ha : w.ark = bs := by simpa using ha
  constructor
  · refine ⟨.arkFile (ArkReader.open w.ark), ?_, by rw [ha]; exact henc⟩
    unfold openSeqStr
    rw [rCreate_ark _ hpath, Option.bind_some]
    show (if 1 < 1 then none else (d.bin a).map _) = _
    rw [if_neg (by omega), bin_of hd]
    rfl
  · rintro ⟨sp, h1, h2⟩
    rw [rCreate_ark _ hpath] at h1
    obtain rfl := Option.some.inj h1
    cases h2

/-- The jobs of the parts: for a script file or an HDF5 archive the records of the parts `1..P`, one part after the other,
are those of the whole; and a part whose job ends normally has written, for each of its records in order, its key and the
vector of its array. -/
theorem C168_parts (e : Env) (d : Disk) (pref : Option Str) (sep : Char) (o : WOpts) (input : Str) (sp : RSpecifier)
    (items : List (Str × Nd)) (f : Nd → Option Nd) (val : Nd → Nd) (P : Nat) (hP : 1 ≤ P)
    (hsp : rCreate d.firstLine input = some sp) (hna : sp.specType = .script ∨ sp.archiveType = .h5)
    (h0 : sp.specType = .script → sp.archiveType = .ark → ∀ t x, d.txt sp.archive = some t → Scp.load sep ':' t = some x →
      ∀ en ∈ x.entries, en.2.2.1 ≠ some 0)
    (hr : Readable e d ⟨pref, sep, 1, 1⟩ input items)
    (hk : ∀ it ∈ items, isToken it.1 = true)
    (hconv : ∀ it ∈ items, ∀ y, f it.2 = some y → ∃ km, o.conv y = some km ∧ km.Value e.D (val y)) :
    ∃ blocks, blocks.flatten = items ∧ List.Forall₂ (fun (i : Nat) block =>
      Readable e d ⟨pref, sep, i, P⟩ input block ∧
      ∀ (output : Str) (s : WSpecifier) (a : Str) (d' : Disk), wCreate output = some s → s.archive = some a →
        s.specType ≠ .script → s.archiveType = some .ark → s.binary = true → '/' ∈ a → (∀ q ∈ s.script, '/' ∈ q ∧ q ≠ a) →
        Spec.PathOk a → job e d ⟨pref, sep, i, P⟩ o f input output = .done d' →
        ∃ vecs : List Nd, List.Forall₂ (fun it y => f it.2 = some y) block vecs ∧
          Readable e d' plainOpts ("ark:".toList ++ a) ((block.map (·.1)).zip (vecs.map val))) (List.range' 1 P) blocks := by
  obtain ⟨blocks, hb, hfl⟩ := C125_parts e d pref sep input sp items P hP hsp hna h0 hr
  refine ⟨blocks, hfl, ?_⟩
  have hmem : ∀ b ∈ blocks, ∀ it ∈ b, it ∈ items := by
    intro b hb' it hit; rw [← hfl]; exact List.mem_flatten.2 ⟨b, hb', hit⟩
  refine (forall₂_mem hb hmem).imp ?_
  rintro i block ⟨hmem, hread⟩
  refine ⟨hread, ?_⟩
  intro output s a d' hs ha hty hark hbin hdir hscr hpath hjob
  have hinp : Input e d ⟨pref, sep, i, P⟩ input block := by
    obtain ⟨r, r', h1, h2, h3⟩ := hread
    refine ⟨r, r', h1, h2, ?_⟩
    cases r with
    | arkFile r =>
      exfalso
      unfold openSeqStr at h1
      rw [hsp, Option.bind_some] at h1
      unfold openSeq at h1
      split at h1
      · obtain ⟨x, _, h1⟩ := Option.map_eq_some_iff.1 h1; cases h1
      · rename_i h4 h5
        rcases hna with h | h
        · rw [h] at h4; cases h4
        · rw [h] at h5; cases h5
      · obtain ⟨x, _, h1⟩ := Option.bind_eq_some_iff.1 h1
        obtain ⟨y, _, h1⟩ := Option.map_eq_some_iff.1 h1; cases h1
      · obtain ⟨x, _, h1⟩ := Option.bind_eq_some_iff.1 h1
        obtain ⟨y, _, h1⟩ := Option.map_eq_some_iff.1 h1; cases h1
    | arkScp r => trivial
    | h5File r => trivial
    | h5Scp r => trivial
  obtain ⟨l, hl, hst⟩ := job_done hjob
  rw [rows_input hinp] at hl
  obtain ⟨_, _, hl⟩ := Option.bind_eq_some_iff.1 hl
  obtain ⟨hkeys, hvals⟩ := mapM_rows hl
  obtain ⟨d2, h1, _, h3, _⟩ := store_ark e.D d o l output s a val hs ha hty hark hbin hdir hscr hpath
    (by
      intro it hit
      obtain ⟨x, hx, hxk, _⟩ := hvals it hit
      rw [← hxk]; exact hk x (hmem x hx))
    (by
      intro it hit
      obtain ⟨x, hx, _, hxf⟩ := hvals it hit
      exact hconv x (hmem x hx) _ hxf)
  obtain rfl : d2 = d' := by rw [hst] at h1; injection h1 with h1; exact h1.symm
  refine ⟨l.map (·.2), ?_, ?_⟩
  · exact rows_forall₂ hl
  · rw [← hkeys]
    have : ∀ l : List (Str × Nd), (l.map (·.1)).zip ((l.map (·.2)).map val) = l.map (fun it => (it.1, val it.2)) := by
      intro l; induction l with
      | nil => rfl
      | cons x l ih => simp only [List.map_cons, List.zip_cons_cons, ih]
    rw [this]
    exact h3 e.pk

theorem empty_script {e : Env} {d : Disk} {ro : ROpts} {input : Str} {sp : RSpecifier}
    (hsp : rCreate d.firstLine input = some sp) (hscr : sp.specType = .script) (h : Readable e d ro input [])
    (f : Nd → Option Nd) : rows e d ro f input = none := by
  obtain ⟨r, r', h1, h2, h3⟩ := h
  unfold rows
  rw [h1, Option.bind_some]
  have ho : openSeq d ro sp = some r := by
    unfold openSeqStr at h1; rw [hsp, Option.bind_some] at h1; exact h1
  obtain ⟨hp, _⟩ := pending_of_read (openSeq_start ho) h3 h2
  have hst := openSeq_start ho
  have : numRows e d r = none := by
    cases r with
    | arkFile r =>
      exfalso
      unfold openSeq at ho
      split at ho
      · obtain ⟨x, _, h1⟩ := Option.map_eq_some_iff.1 ho; cases h1
      · rename_i h4 h5; rw [hscr] at h4; cases h4
      · obtain ⟨x, _, h1⟩ := Option.bind_eq_some_iff.1 ho
        obtain ⟨y, _, h1⟩ := Option.map_eq_some_iff.1 h1; cases h1
      · obtain ⟨x, _, h1⟩ := Option.bind_eq_some_iff.1 ho
        obtain ⟨y, _, h1⟩ := Option.map_eq_some_iff.1 h1; cases h1
    | h5File r =>
      exfalso
      unfold openSeq at ho
      split at ho
      · rename_i h4 h5; rw [hscr] at h4; cases h4
      · split at ho
        · simp at ho
        · obtain ⟨x, _, h1⟩ := Option.map_eq_some_iff.1 ho; cases h1
      · obtain ⟨x, _, h1⟩ := Option.bind_eq_some_iff.1 ho
        obtain ⟨y, _, h1⟩ := Option.map_eq_some_iff.1 h1; cases h1
      · obtain ⟨x, _, h1⟩ := Option.bind_eq_some_iff.1 ho
        obtain ⟨y, _, h1⟩ := Option.map_eq_some_iff.1 h1; cases h1
    | arkScp r =>
      obtain ⟨_, r2, hl⟩ := hp
      have hlen := (loopG_full (scp_steps e d.bin) (le_refl _) hl).2
      have h0 : r.scp.key.length - r.cur = 0 := hlen.symm
      simp only [numRows, seqNumRows, ScpReader.readShapes, if_true, h0, scpShapeLoop, Option.map_some, scpCheck,
        List.map_nil, dimsAgree]
      rfl
    | h5Scp r =>
      obtain ⟨_, r2, hl⟩ := hp
      have hlen := (loopG_full (scr_steps e d.hdf) (le_refl _) hl).2
      have h0 : r.scp.key.length - r.cur = 0 := hlen.symm
      simp only [numRows, H5.SeqScript.readShapes, if_true, h0, H5.SeqScript.shapeLoop]
      rfl
  rw [this]
  rfl

/-- With more parts than records in a script file the job of at least one part raises, and leaves no output. -/
theorem C168_more_parts_than_records (e : Env) (d : Disk) (pref : Option Str) (sep : Char) (o : WOpts) (input : Str)
    (sp : RSpecifier) (items : List (Str × Nd)) (f : Nd → Option Nd) (P : Nat) (hP : items.length < P)
    (hsp : rCreate d.firstLine input = some sp) (hscr : sp.specType = .script)
    (h0 : sp.specType = .script → sp.archiveType = .ark → ∀ t x, d.txt sp.archive = some t → Scp.load sep ':' t = some x →
      ∀ en ∈ x.entries, en.2.2.1 ≠ some 0)
    (hr : Readable e d ⟨pref, sep, 1, 1⟩ input items) :
    ∃ i, 1 ≤ i ∧ i ≤ P ∧ ∀ output, job e d ⟨pref, sep, i, P⟩ o f input output = .untouched := by
  obtain ⟨blocks, hb, hfl⟩ := C125_parts e d pref sep input sp items P (by omega) hsp (Or.inl hscr) h0 hr
  have hlen : blocks.length = P := by have := hb.length_eq; simpa using this.symm
  have hex : ∃ b ∈ blocks, b = [] := by
    by_contra hcon
    push Not at hcon
    have : ∀ (bs : List (List (Str × Nd))), (∀ b ∈ bs, b ≠ []) → bs.length ≤ bs.flatten.length := by
      intro bs
      induction bs with
      | nil => simp
      | cons b bs ih =>
        intro h
        have h1 := ih (fun b hb => h b (by simp [hb]))
        have h2 := List.length_pos_iff.2 (h b (by simp))
        simp only [List.length_cons, List.flatten_cons, List.length_append]
        omega
    have := this blocks hcon
    rw [hfl] at this
    omega
  obtain ⟨b, hb1, rfl⟩ := hex
  obtain ⟨k, hk, hkb⟩ := List.getElem_of_mem hb1
  have hk' : k < (List.range' 1 P).length := by rw [List.length_range']; omega
  have hget := (List.forall₂_iff_get.1 hb).2 k hk' hk
  simp only [List.get_eq_getElem, List.getElem_range', hkb] at hget
  refine ⟨1 + 1 * k, by omega, by omega, fun output => ?_⟩
  unfold job
  rw [empty_script hsp hscr hget f]

/-- keras-extract-seq-q-embed.py with `--write-format`: the network gives two vectors `u v` and `w v` for an array `v` (the
parameters of the posterior); what is stored is the first for `p1`, the second for `p2`, the first followed by the second
for `p1+p2`. -/
theorem C168_write_format (e : Env) (d : Disk) (ro : ROpts) (o : WOpts) (input output : Str) (items : List (Str × Nd))
    (form : Form) (g : Nd → Option (List Bytes × List Bytes)) (u w row : Nd → List Bytes)
    (hrow : ∀ it ∈ items, (form = .p1 ∧ row it.2 = u it.2) ∨ (form = .p2 ∧ row it.2 = w it.2) ∨
      (form = .both ∧ row it.2 = u it.2 ++ w it.2))
    (s : WSpecifier) (a : Str)
    (hin : Source e d ro input items) (hw : ∀ p ∈ items, ∀ q ∈ items, p.2.shape.getLast? = q.2.shape.getLast?)
    (hne : IsScript d input → items ≠ []) (hf : ∀ it ∈ items, g it.2 = some (u it.2, w it.2))
    (hs : wCreate output = some s) (ha : s.archive = some a) (hty : s.specType ≠ .script)
    (hark : s.archiveType = some .ark) (hbin : s.binary = true)
    (hdir : '/' ∈ a) (hscr : ∀ q ∈ s.script, '/' ∈ q ∧ q ≠ a) (hpath : Spec.PathOk a)
    (hk : ∀ it ∈ items, isToken it.1 = true)
    (hconv : ∀ it ∈ items, ∃ km, o.conv (.vec .f32 (row it.2)) = some km ∧ km.Value e.D (.vec .f32 (row it.2))) :
    ∃ d', qJob e d ro o form g input output = .done d' ∧
      (∀ pk, Readable ⟨pk, e.D⟩ d' plainOpts ("ark:".toList ++ a) (items.map (fun it => (it.1, .vec .f32 (row it.2))))) := by
  obtain ⟨d', h1, _, h3, _⟩ := C168_extract_to_ark e d ro o input output items
    (fun v => (g v).map (fun p => .vec .f32 (qRow form p))) (fun v => .vec .f32 (row v)) s a id hin hw hne
    (by
      intro it hit
      rw [hf it hit]
      rcases hrow it hit with ⟨rfl, h⟩ | ⟨rfl, h⟩ | ⟨rfl, h⟩ <;> simp only [Option.map_some, qRow, h])
    hs ha hty hark hbin hdir hscr hpath hk hconv
  exact ⟨d', h1, h3⟩

/-! ### a concrete case: an HDF5 file with two matrices, the network takes the first row -/

def exM (a : UInt8) (n : Nat) : Nd := .mat .f32 2 ((List.range n).map (fun _ => [[a, 0, 0, 0], [2, 0, 0, 0]]))
def exFile : H5.File := ⟨[([['b']], .plain (exM 7 2)), ([['a']], .plain (exM 9 1))]⟩
def exDisk : Disk := fun p => if p = exPath then some (.hdf exFile) else none
def exItems : List (Str × Nd) := [(['a'], exM 9 1), (['b'], exM 7 2)]
def exNet : Nd → Option Nd
  | .mat dt _ (r :: _) => some (.vec dt r)
  | _ => none

theorem exSource (e : Env) : Source e exDisk plainOpts ("h5:".toList ++ exPath) exItems := by
  refine ⟨.h5File ⟨some exFile, [['a'], ['b']], 0⟩, ?_, ?_⟩
  · unfold openSeqStr
    rw [rCreate_h5 _ exPathOk.1, Option.bind_some]
    rfl
  · refine ⟨exFile, rfl, rfl, ?_⟩
    intro it hit
    simp only [exItems, List.mem_cons, List.not_mem_nil, or_false] at hit
    rcases hit with rfl | rfl
    · exact ⟨_, rfl, .plain _⟩
    · exact ⟨_, rfl, .plain _⟩

theorem exNotScript : ¬ IsScript exDisk ("h5:".toList ++ exPath) := by
  rintro ⟨sp, h1, h2⟩
  rw [rCreate_h5 _ exPathOk.1] at h1
  obtain rfl := Option.some.inj h1
  cases h2

/-- C168: to an ark archive. -/
example (e : Env) : ∃ d', job e exDisk plainOpts exW exNet ("h5:".toList ++ exPath)
      ("ark,scp:".toList ++ (exOut ++ ',' :: exScr)) = .done d' ∧ d' exPath = some (.hdf exFile) ∧
    Readable e d' plainOpts ("ark:".toList ++ exOut)
      [(['a'], .vec .f32 [[9, 0, 0, 0], [2, 0, 0, 0]]), (['b'], .vec .f32 [[7, 0, 0, 0], [2, 0, 0, 0]])] := by
  obtain ⟨d', h1, h2, h3, _⟩ := C168_extract_to_ark e exDisk plainOpts exW ("h5:".toList ++ exPath) _ exItems exNet
    (fun v => (exNet v).getD v) exSpec exOut id (exSource e) (by decide) (fun h => absurd h exNotScript) (by decide) exCreate rfl
    (by decide) rfl rfl (by decide) (by decide) exPathOk.2.1 (by decide)
    (by
      intro it hit
      simp only [exItems, List.mem_cons, List.not_mem_nil, or_false] at hit
      rcases hit with rfl | rfl
      · exact ⟨_, rfl, .plain _ (by simp [exNet, exM, Nd.WF, Dt.size]) (Or.inl rfl) (by simp [exNet, exM, Nd.SizesOk, Nd.shape])⟩
      · exact ⟨_, rfl, .plain _ (by simp [exNet, exM, Nd.WF, Dt.size, List.range_succ]) (Or.inl rfl)
          (by simp [exNet, exM, Nd.SizesOk, Nd.shape, List.range_succ])⟩)
  exact ⟨d', h1, by rw [h2 _ (by decide) (by decide)]; rfl, h3 e.pk⟩

/-- C168: the output replaces the input, which was read completely before. -/
example (e : Env) : ∃ d' sorted, job e exDisk plainOpts exW exNet ("h5:".toList ++ exPath) ("h5:".toList ++ exPath) = .done d' ∧
    sorted.Perm [(['a'], .vec .f32 [[9, 0, 0, 0], [2, 0, 0, 0]]), (['b'], .vec .f32 [[7, 0, 0, 0], [2, 0, 0, 0]])] ∧
    Readable e d' plainOpts ("h5:".toList ++ exPath) sorted := by
  obtain ⟨d', sorted, h1, _, h3, _, h5, _⟩ := C168_extract_to_h5 e exDisk plainOpts exW ("h5:".toList ++ exPath)
    ("h5:".toList ++ exPath) exItems exNet
    (fun v => (exNet v).getD v) ⟨.archive, some exPath, none, some .h5, true, false, false⟩ exPath id (exSource e) (by decide)
    (fun h => absurd h exNotScript) (by decide) (by decide) rfl
    (by decide) rfl (by decide) (by decide) exPathOk.1
    (by
      intro it hit
      simp only [exItems, List.mem_cons, List.not_mem_nil, or_false] at hit
      rcases hit with rfl | rfl <;> exact ⟨by decide, by decide, by decide⟩) (by decide)
    (by
      intro it hit
      simp only [exItems, List.mem_cons, List.not_mem_nil, or_false] at hit
      rcases hit with rfl | rfl
      · exact ⟨_, rfl, .plain _⟩
      · exact ⟨_, rfl, .plain _⟩)
  exact ⟨d', sorted, h1, h3, h5 e.pk⟩

/-- An output that cannot be understood, blank or with two colons, is noticed only after all the vectors have been computed: the
job raises, no file changes, the vectors are lost. -/
theorem C168_bad_output (e : Env) (d : Disk) (ro : ROpts) (o : WOpts) (input output : Str) (f : Nd → Option Nd)
    (h : Spec.strip output = [] ∨ ∃ a b c, Spec.strip output = a ++ ':' :: b ++ ':' :: c ∧ ':' ∉ a ∧ ':' ∉ b ∧ ':' ∉ c) :
    job e d ro o f input output = .untouched := by
  have hw : Spec.wCreate output = none := by
    unfold Spec.wCreate
    rcases h with h | ⟨a, b, c, h, ha, hb, hc⟩
    · rw [h]; rfl
    · rw [h, List.append_assoc, List.cons_append, Hyp.Text.splitAll_append ha, Hyp.Text.splitAll_append hb, Hyp.Text.splitAll_noSep hc]
  unfold job
  cases rows e d ro f input with
  | none => rfl
  | some l =>
    show store d o output l = _
    unfold store
    rw [hw]

/-- C168: a network that raises for the array of one row. -/
example (e : Env) (output : Str) : job e exDisk plainOpts exW (fun v => if v.shape = [1, 2] then none else exNet v)
    ("h5:".toList ++ exPath) output = .untouched :=
  C168_stops e exDisk plainOpts exW _ output exItems _ (exSource e) (Or.inr (Or.inl ⟨(['a'], exM 9 1), by decide, by decide⟩))

/-- C168: two colons. -/
example (e : Env) : job e exDisk plainOpts exW exNet ("h5:".toList ++ exPath) "ark:a:b".toList = .untouched :=
  C168_bad_output e _ _ _ _ _ _ (Or.inr ⟨"ark".toList, ['a'], ['b'], by decide, by decide, by decide, by decide⟩)

/-- C168: the parts of that file. -/
example (e : Env) : ∃ blocks : List (List (Str × Nd)), blocks.flatten = exItems ∧ blocks.length = 2 := by
  obtain ⟨blocks, h1, h2⟩ := C168_parts e exDisk none ' ' exW ("h5:".toList ++ exPath) _ exItems exNet id 2 (by decide)
    (rCreate_h5 _ exPathOk.1) (Or.inr rfl) (fun h => by cases h) (source_opened (exSource e)).1.readable (by decide)
    (by
      intro it hit
      simp only [exItems, List.mem_cons, List.not_mem_nil, or_false] at hit
      rcases hit with rfl | rfl
      · intro y hy
        obtain rfl := Option.some.inj hy
        exact ⟨_, rfl, .plain _ (by simp [Nd.WF, Dt.size]) (Or.inl rfl) (by simp [Nd.SizesOk, Nd.shape])⟩
      · intro y hy
        obtain rfl := Option.some.inj hy
        exact ⟨_, rfl, .plain _ (by simp [Nd.WF, Dt.size]) (Or.inl rfl) (by simp [Nd.SizesOk, Nd.shape])⟩)
  exact ⟨blocks, h1, by simpa using h2.length_eq.symm⟩

/-- C168: a script file of two entries in three parts. -/
example (e : Env) (f : Nd → Option Nd) : ∃ i, 1 ≤ i ∧ i ≤ 3 ∧
    ∀ output, job e exDiskQ ⟨none, ' ', i, 3⟩ exW f ("scp:".toList ++ exScr) output = .untouched := by
  have hty : scriptArchiveType exDiskQ.firstLine exScr = some .h5 := by
    have : exDiskQ.firstLine exScr = some ['b', ' ', 'f', '\n'] := rfl
    unfold scriptArchiveType
    rw [this]; rfl
  have h2 := rCreate_scp exDiskQ.firstLine exPathOk.2.2 hty
  refine C168_more_parts_than_records e exDiskQ none ' ' exW _ _ [(['b'], exB), (['a'], exA)] f 3 (by decide) h2 rfl
    (fun _ h => by cases h) ?_
  refine ⟨.h5Scp ⟨⟨[['b'], ['a']], [['f'], ['f']], none, none, none⟩, 0, none⟩,
    .h5Scp ⟨⟨[['b'], ['a']], [['f'], ['f']], none, none, none⟩, 2, some (['f'], Copy.exFile)⟩, ?_, ?_, trivial⟩
  · unfold openSeqStr
    rw [h2]
    rfl
  · rfl

end Hyp.Extract
