import Verif.H5.Model
import Verif.NpLemmas
import Verif.Kaldi.ArkProps

/-! Specification of the HDF5 readers and lemmas. -/

namespace Hyp.H5
open Hyp.Text Hyp.Kaldi Hyp.ListUtils

/-! ### specification -/

/-- rows (elements of a vector) `off..off+n` of an array; `n = 0`: to the end. -/
def rowsOf (off n : Nat) : Nd → Nd
  | .vec dt els => .vec dt (if n = 0 then els.drop off else (els.drop off).take n)
  | .mat dt cols rows => .mat dt cols (if n = 0 then rows.drop off else (rows.drop off).take n)

/-- the same, refused when `n > 0` rows are not available. -/
def rowsOf? (off n : Nat) (v : Nd) : Option Nd := if n = 0 ∨ off + n ≤ v.dim0 then some (rowsOf off n v) else none

/-- the array a dataset stands for: itself, or the codes decoded one by one. -/
inductive Stored (D : Decoder) : DSet → Nd → Prop
  | plain (m : Nd) : Stored D (.plain m) m
  | coded (a : CmAttrs) : a.WF → Stored D (.coded a) (.mat .f32 a.cols (a.codes.map (a.decodeRow D)))

/-- the array that an object given to the writer stands for. -/
inductive Given (D : Decoder) : KMat → Nd → Prop
  | plain (m : Nd) : Given D (.plain m) m
  | comp (a : CmAttrs) (d : Bytes) : a.WF → cmBuild a = some d →
      Given D (.comp (some d)) (.mat .f32 a.cols (a.codes.map (a.decodeRow D)))

/-- keys the writer accepts and that name a dataset of the root group. -/
structure PlainKey (k : Str) : Prop where
  token : isToken k = true
  slash : '/' ∉ k
  dot : k ≠ ['.']

/-- the file has exactly one dataset for each item, under its key in the root group; the items are in
increasing order of key. -/
structure Holds (D : Decoder) (f : File) (items : List (Str × Nd)) : Prop where
  keys : f.keys = items.map (·.1)
  sorted : (items.map (·.1)).Pairwise (· < ·)
  get : ∀ it ∈ items, ∃ d, f.get it.1 = some d ∧ Stored D d it.2
  has : ∀ k, PlainKey k → (f.has k = true ↔ k ∈ items.map (·.1))

/-! ### slices -/

theorem sliceRows_eq {α : Type} (off n : Nat) (l : List α) :
    sliceRows off n l = if n = 0 then l.drop off else (l.drop off).take n := by
  unfold sliceRows
  by_cases h : 0 < off
  · rw [if_pos h]
  · have : off = 0 := by omega
    subst this
    rw [if_neg h]
    by_cases hn : n = 0
    · simp [hn]
    · simp [hn, Nat.pos_of_ne_zero hn]

theorem sliceNd_eq (off n : Nat) (v : Nd) : sliceNd off n v = rowsOf off n v := by
  cases v <;> simp [sliceNd, rowsOf, sliceRows_eq]

theorem rowsOf_zero (v : Nd) : rowsOf 0 0 v = v := by cases v <;> simp [rowsOf]

theorem rowsOf?_zero (v : Nd) : rowsOf? 0 0 v = some v := by simp [rowsOf?, rowsOf_zero]

theorem dim0_rowsOf (off n : Nat) (v : Nd) :
    (rowsOf off n v).dim0 = if n = 0 then v.dim0 - off else min n (v.dim0 - off) := by
  cases v <;> simp only [rowsOf, Nd.dim0] <;> split <;> simp

theorem decodeSlice_stored {D : Decoder} {d : DSet} {v : Nd} (h : Stored D d v) (off n : Nat) :
    decodeSlice D off n d = some (rowsOf off n v) := by
  cases h with
  | plain m => simp [decodeSlice, sliceNd_eq]
  | coded a hwf =>
    have hs := CmAttrs.WF.slice hwf off n
    obtain ⟨h', _, hb'⟩ := cmBuild_eq hs
    have he : ({ a with codes := sliceRows off n a.codes } : CmAttrs) = a.slice off n := by
      simp [CmAttrs.slice, sliceRows_eq]
    simp only [decodeSlice, he, hb', Option.bind_some]
    rw [cmToNd_build D hs hb']
    have hdr : (a.slice off n).decodeRow D = a.decodeRow D := by funext r; rfl
    rw [hdr]
    simp only [CmAttrs.slice, rowsOf]
    split <;> simp [List.map_drop, List.map_take]

theorem readSet_stored {D : Decoder} {d : DSet} {v : Nd} (h : Stored D d v) (tr : Nd → Nd) (off n : Nat) :
    readSet D tr off n d = (rowsOf? off n v).map tr := by
  unfold readSet rowsOf?
  rw [decodeSlice_stored h]
  simp only [Option.bind_eq_bind, Option.bind_some, dim0_rowsOf]
  by_cases hn : n = 0
  · simp [hn]
  · simp only [hn, if_false, false_or]
    by_cases hl : off + n ≤ v.dim0
    · rw [if_pos (by omega), if_pos hl]; rfl
    · rw [if_neg (by omega), if_neg hl]; rfl

theorem shape_stored {D : Decoder} {d : DSet} {v : Nd} (h : Stored D d v) : d.shape = v.shape := by
  cases h <;> simp [DSet.shape, Nd.shape]

/-! ### keys -/

theorem components_noslash {k : Str} (h : '/' ∉ k) : components k = [k] := by
  induction k with
  | nil => rfl
  | cons c cs ih =>
    have h1 : c ≠ '/' := fun e => h (by simp [e])
    have h2 : '/' ∉ cs := fun e => h (by simp [e])
    simp [components, h1, ih h2]

theorem PlainKey.ne_nil {k : Str} (h : PlainKey k) : k ≠ [] := by
  intro e
  have := h.token
  rw [e] at this
  revert this; decide

theorem PlainKey.path {k : Str} (h : PlainKey k) : h5path k = [k] := by
  simp [h5path, components_noslash h.slash, h.ne_nil]

theorem PlainKey.notOdd {k : Str} (h : PlainKey k) : oddKey k = false := by
  have h1 := h.ne_nil
  have h2 := h.dot
  simp [oddKey, components_noslash h.slash, h1, Ne.symm h2]

/-! ### writing -/

theorem convert_given {D : Decoder} {k : KMat} {v : Nd} (h : Given D k v) : ∃ d, convert k = some d ∧ Stored D d v := by
  cases h with
  | plain => exact ⟨_, rfl, .plain _⟩
  | comp a d hwf hd =>
    obtain ⟨d', hd', hg⟩ := C25_attrs_round_trip a hwf
    rw [hd] at hd'
    obtain rfl := Option.some.inj hd'
    exact ⟨_, by simp [convert, hg], .coded a hwf⟩

/-- files whose datasets are all in the root group. -/
def Flat (f : File) (sets : List (Str × DSet)) : Prop := f.sets = sets.map (fun e => ([e.1], e.2))

theorem Flat.create {f : File} {sets : List (Str × DSet)} (h : Flat f sets) {k : Str} (hk : PlainKey k) (d : DSet)
    (hn : k ∉ sets.map (·.1)) : ∃ f', f.create k d = some f' ∧ Flat f' (sets ++ [(k, d)]) := by
  refine ⟨⟨f.sets ++ [([k], d)]⟩, ?_, by unfold Flat at *; simp [h]⟩
  unfold File.create
  rw [hk.path, hk.notOdd, h]
  have : (sets.map (fun e => (([e.1] : List Str), e.2))).any
      (fun e => e.1.isPrefixOf [k] || ([k] : List Str).isPrefixOf e.1) = false := by
    rw [List.any_eq_false]
    intro e he
    obtain ⟨x, hx, rfl⟩ := List.mem_map.1 he
    have : x.1 ≠ k := fun e => hn (e ▸ List.mem_map_of_mem hx)
    simp [this, Ne.symm this]
  simp [this]

theorem Flat.create_dup {f : File} {sets : List (Str × DSet)} (h : Flat f sets) {k : Str} (hk : PlainKey k) (d : DSet)
    (hn : k ∈ sets.map (·.1)) : f.create k d = none := by
  unfold File.create
  rw [hk.path, hk.notOdd, h]
  have : (sets.map (fun e => (([e.1] : List Str), e.2))).any
      (fun e => e.1.isPrefixOf [k] || ([k] : List Str).isPrefixOf e.1) = true := by
    rw [List.any_eq_true]
    obtain ⟨x, hx, rfl⟩ := List.mem_map.1 hn
    exact ⟨_, List.mem_map_of_mem hx, by simp⟩
  simp [this]

theorem Flat.keys {f : File} {sets : List (Str × DSet)} (h : Flat f sets) : f.keys = npUnique (sets.map (·.1)) := by
  unfold File.keys
  rw [h]
  congr 1
  clear h
  induction sets with
  | nil => rfl
  | cons a l ih => simpa using ih

theorem lookup_flat (sets : List (Str × DSet)) (k : Str) :
    (sets.map (fun e => (([e.1] : List Str), e.2))).lookup [k] = sets.lookup k := by
  induction sets with
  | nil => rfl
  | cons a l ih =>
    by_cases h : k = a.1
    · subst h; simp [List.lookup]
    · have h1 : ([k] == [a.1]) = false := by simp [h]
      have h2 : (k == a.1) = false := by simp [h]
      simp [List.lookup, h1, h2, ih]

theorem Flat.get {f : File} {sets : List (Str × DSet)} (h : Flat f sets) {k : Str} (hk : PlainKey k) :
    f.get k = sets.lookup k := by
  unfold File.get
  rw [hk.path, h, lookup_flat]

theorem Flat.has {f : File} {sets : List (Str × DSet)} (h : Flat f sets) {k : Str} (hk : PlainKey k) :
    f.has k = true ↔ k ∈ sets.map (·.1) := by
  unfold File.has
  rw [hk.path, h]
  constructor
  · intro hh
    simp only [List.any_map, Bool.or_eq_true, List.any_eq_true] at hh
    rcases hh with hh | ⟨x, hx, hxx⟩
    · simp at hh
    · simp only [Function.comp, List.isPrefixOf, Bool.and_true, beq_iff_eq] at hxx
      exact hxx ▸ List.mem_map_of_mem hx
  · intro hh
    obtain ⟨x, hx, rfl⟩ := List.mem_map.1 hh
    simp only [List.any_map, Bool.or_eq_true, List.any_eq_true]
    exact Or.inr ⟨x, hx, by simp⟩

theorem lookup_of_mem {sets : List (Str × DSet)} (hnd : (sets.map (·.1)).Nodup) {e : Str × DSet} (he : e ∈ sets) :
    sets.lookup e.1 = some e.2 := by
  induction sets with
  | nil => simp at he
  | cons a l ih =>
    simp only [List.map_cons, List.nodup_cons] at hnd
    rcases List.mem_cons.1 he with rfl | hm
    · simp [List.lookup]
    · have : e.1 ≠ a.1 := fun h => hnd.1 (h ▸ List.mem_map_of_mem hm)
      have h2 : (e.1 == a.1) = false := by simp [this]
      simp [List.lookup, h2, ih hnd.2 hm]

/-- the items of a flat file sorted by key. -/
theorem Flat.holds {D : Decoder} {f : File} {sets : List (Str × DSet)} (h : Flat f sets)
    (hk : ∀ e ∈ sets, PlainKey e.1) (hnd : (sets.map (·.1)).Nodup)
    {items : List (Str × Nd)} (hi : List.Forall₂ (fun e it => e.1 = it.1 ∧ Stored D e.2 it.2) sets items) :
    ∃ sorted : List (Str × Nd), sorted.Perm items ∧ Holds D f sorted := by
  have hkeys : sets.map (·.1) = items.map (·.1) := by
    clear h hk hnd
    induction hi with
    | nil => rfl
    | cons a b ih => simp [a.1, ih]
  refine ⟨items.mergeSort (fun a b => decide (a.1 ≤ b.1)), List.mergeSort_perm _ _, ?_⟩
  set sorted := items.mergeSort (fun a b => decide (a.1 ≤ b.1)) with hs
  have hp : sorted.Perm items := List.mergeSort_perm _ _
  have hnd' : (sorted.map (·.1)).Nodup := (hp.map _).nodup_iff.2 (hkeys ▸ hnd)
  have hle : (sorted.map (·.1)).Pairwise (· ≤ ·) := by
    rw [List.pairwise_map]
    have := List.pairwise_mergeSort (le := fun a b : Str × Nd => decide (a.1 ≤ b.1))
      (fun a b c h1 h2 => by simp only [decide_eq_true_eq] at *; exact le_trans h1 h2)
      (fun a b => by simp only [Bool.or_eq_true, decide_eq_true_eq]; exact le_total _ _) items
    rw [← hs] at this
    exact this.imp (fun h => by simpa using h)
  have hlt : (sorted.map (·.1)).Pairwise (· < ·) :=
    (List.Pairwise.and hle hnd').imp (fun h => lt_of_le_of_ne h.1 h.2)
  refine ⟨?_, hlt, ?_, ?_⟩
  · rw [h.keys, ← npUnique_of_sorted hlt]
    refine List.Perm.eq_of_pairwise (le := (· < ·)) ?_ (npUnique_sorted _) (npUnique_sorted _) ?_
    · intro a b _ _ h1 h2; exact absurd (lt_trans h1 h2) (lt_irrefl _)
    · rw [List.perm_ext_iff_of_nodup (npUnique_nodup _) (npUnique_nodup _)]
      intro a
      rw [mem_npUnique, mem_npUnique, hkeys]
      exact (hp.map _).mem_iff.symm
  · intro it hit
    have hit' := hp.mem_iff.1 hit
    obtain ⟨i, hi1, rfl⟩ := List.mem_iff_getElem.1 hit'
    have hl := hi.length_eq
    have := (List.forall₂_iff_get.1 hi).2 i (by omega) hi1
    simp only [List.get_eq_getElem] at this
    have hm : sets[i]'(by omega) ∈ sets := List.getElem_mem _
    refine ⟨_, ?_, this.2⟩
    rw [← this.1, h.get (hk _ hm), lookup_of_mem hnd hm]
  · intro k hkk
    rw [h.has hkk, hkeys]
    exact (hp.map _).mem_iff.symm

theorem write_flat {D : Decoder} (sep : Char) (path : Str) (items : List (Str × KMat × Nd)) (w : Writer)
    (sets : List (Str × DSet)) (hw : Flat w.file sets) (hk : ∀ it ∈ items, PlainKey it.1)
    (hnd : (sets.map (·.1) ++ items.map (·.1)).Nodup) (hv : ∀ it ∈ items, Given D it.2.1 it.2.2) :
    ∃ w' new, w.write sep path (items.map (fun it => (it.1, it.2.1))) = some w' ∧ Flat w'.file (sets ++ new) ∧
      w'.script = (if w.hasScript then w.script ++ items.flatMap (fun it => scriptLine sep path it.1) else w.script) ∧
      w'.hasScript = w.hasScript ∧
      List.Forall₂ (fun e it => e.1 = it.1 ∧ Stored D e.2 it.2.2) new items := by
  induction items generalizing w sets with
  | nil => exact ⟨w, [], rfl, by simpa using hw, by simp, rfl, .nil⟩
  | cons it items ih =>
    obtain ⟨d, hd, hst⟩ := convert_given (hv it (by simp))
    have hkk := hk it (by simp)
    have hn : it.1 ∉ sets.map (·.1) := by
      intro hm
      have := (List.nodup_append.1 hnd).2.2 _ hm it.1 (by simp)
      exact this rfl
    obtain ⟨f', hf', hfl⟩ := hw.create hkk d hn
    let w1 : Writer := ⟨f', if w.hasScript then w.script ++ scriptLine sep path it.1 else w.script, w.hasScript⟩
    have h1 : Writer.writeOne sep path w (it.1, it.2.1) = some w1 := by
      simp [Writer.writeOne, hkk.token, hd, hf', w1]
    obtain ⟨w', new, g1, g2, g3, g4, g5⟩ := ih w1 (sets ++ [(it.1, d)]) hfl (fun x hx => hk x (by simp [hx]))
      (by simpa [List.append_assoc] using hnd) (fun x hx => hv x (by simp [hx]))
    refine ⟨w', (it.1, d) :: new, ?_, by simpa [List.append_assoc] using g2, ?_, g4, .cons ⟨rfl, hst⟩ g5⟩
    · rw [Writer.write] at g1 ⊢
      rw [List.map_cons, List.foldlM_cons, h1]
      exact g1
    · rw [g3]
      cases hb : w.hasScript <;> simp [w1, hb]

/-! ### the sequential loop -/

/-- what the readers return for one item: its rows, with the `j`-th of the requested ranges. -/
def itemRows (tr : Nd → Nd) (offs ns : Arg) (p : (Str × Nd) × Nat) : Option (Str × Nd) := do
  let o ← offs.at p.2
  let n ← ns.at p.2
  let m ← rowsOf? o n p.1.2
  return (p.1.1, tr m)

theorem seqFile_loop {D : Decoder} (tr : Nd → Nd) (offs ns : Arg) {f : File} {items : List (Str × Nd)}
    (hget : ∀ it ∈ items, ∃ d, f.get it.1 = some d ∧ Stored D d it.2) (k i : Nat) (r : SeqFile)
    (hf : r.f = some f) (hk : r.keys = items.map (·.1)) (hc : r.cur ≤ items.length) :
    SeqFile.loop D tr offs ns k i r =
      ((((items.drop r.cur).take k).zipIdx i).mapM (itemRows tr offs ns)).map
        (fun xs => (xs, { r with cur := r.cur + min k (items.length - r.cur) })) := by
  induction k generalizing i r with
  | zero => simp [SeqFile.loop]
  | succ k ih =>
    rw [SeqFile.loop]
    have hlen : r.keys.length = items.length := by simp [hk]
    by_cases he : r.cur = items.length
    · have : r.eof = true := by simp [SeqFile.eof, hlen, he]
      rw [if_pos this, List.drop_of_length_le (by omega)]
      have hz : min (k + 1) (items.length - r.cur) = 0 := by omega
      simp [hz]
    · have : r.eof = false := by simp [SeqFile.eof, hlen, he]
      have hlt : r.cur < items.length := by omega
      rw [this]
      simp only [Bool.false_eq_true, if_false]
      obtain ⟨d, hd, hst⟩ := hget _ (List.getElem_mem hlt)
      have hone : r.readOne D tr offs ns i =
          (itemRows tr offs ns (items[r.cur], i)).map (fun x => (x, { r with cur := r.cur + 1 })) := by
        have hkey : r.keys[r.cur]? = some items[r.cur].1 := by simp [hk, hlt]
        simp only [SeqFile.readOne, itemRows, hkey, hf, hd, Option.bind_eq_bind, Option.bind_some]
        rcases offs.at i with _ | o
        · rfl
        rcases ns.at i with _ | n
        · rfl
        simp only [Option.bind_some, readSet_stored hst]
        rcases rowsOf? o n items[r.cur].2 with _ | m <;> rfl
      rw [hone, List.drop_eq_getElem_cons hlt, List.take_succ_cons, List.zipIdx_cons, List.mapM_cons]
      rcases itemRows tr offs ns (items[r.cur], i) with _ | x
      · rfl
      simp only [Option.map_some, Option.bind_eq_bind, Option.bind_some]
      rw [ih (i + 1) { r with cur := r.cur + 1 } hf hk (by simp; omega)]
      simp only
      rcases (((items.drop (r.cur + 1)).take k).zipIdx (i + 1)).mapM (itemRows tr offs ns) with _ | xs
      · rfl
      simp only [Option.map_some, Option.bind_some, Option.pure_def, Option.some.injEq, Prod.mk.injEq, true_and]
      congr 1
      omega

theorem seqFile_shapeLoop {D : Decoder} {f : File} {items : List (Str × Nd)}
    (hget : ∀ it ∈ items, ∃ d, f.get it.1 = some d ∧ Stored D d it.2) (k : Nat) (r : SeqFile)
    (hf : r.f = some f) (hk : r.keys = items.map (·.1)) (hc : r.cur ≤ items.length) :
    SeqFile.shapeLoop k r =
      some (((items.drop r.cur).take k).map (fun it => (it.1, it.2.shape.map Int.ofNat)),
        { r with cur := r.cur + min k (items.length - r.cur) }) := by
  induction k generalizing r with
  | zero => simp [SeqFile.shapeLoop]
  | succ k ih =>
    rw [SeqFile.shapeLoop]
    have hlen : r.keys.length = items.length := by simp [hk]
    by_cases he : r.cur = items.length
    · have : r.eof = true := by simp [SeqFile.eof, hlen, he]
      rw [if_pos this, List.drop_of_length_le (by omega)]
      have hz : min (k + 1) (items.length - r.cur) = 0 := by omega
      simp [hz]
    · have : r.eof = false := by simp [SeqFile.eof, hlen, he]
      have hlt : r.cur < items.length := by omega
      rw [this]
      simp only [Bool.false_eq_true, if_false]
      obtain ⟨d, hd, hst⟩ := hget _ (List.getElem_mem hlt)
      have hone : r.shapeOne = some ((items[r.cur].1, items[r.cur].2.shape.map Int.ofNat), { r with cur := r.cur + 1 }) := by
        have hkey : r.keys[r.cur]? = some items[r.cur].1 := by simp [hk, hlt]
        simp [SeqFile.shapeOne, hkey, hf, hd, DSet.ishape, shape_stored hst]
      rw [hone, List.drop_eq_getElem_cons hlt, List.take_succ_cons, List.map_cons]
      simp only [Option.bind_eq_bind, Option.bind_some]
      rw [ih { r with cur := r.cur + 1 } hf hk (by simp; omega)]
      simp only [Option.bind_some, Option.pure_def, Option.some.injEq, Prod.mk.injEq, true_and]
      congr 1
      omega

end Hyp.H5
