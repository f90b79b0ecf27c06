import Verif.H5.Lemmas
import Verif.Kaldi.BatchProps
import Verif.ListUtils.Props

/-! C95 (write and read back), C96 (batches and parts), C97 (random access, row ranges) for HDF5 archives. -/

namespace Hyp.H5
open Hyp.Text Hyp.Kaldi Hyp.ListUtils

/-! ## C95 -/

theorem keys_of {D : Decoder} {new : List (Str × DSet)} {items : List (Str × KMat × Nd)}
    (h : List.Forall₂ (fun e it => e.1 = it.1 ∧ Stored D e.2 it.2.2) new items) : new.map (·.1) = items.map (·.1) := by
  induction h with
  | nil => rfl
  | cons a b ih => simp [a.1, ih]

/-- The datasets of a file written by the writer. -/
theorem C95_written_file (D : Decoder) (sep : Char) (path : Str) (hs : Bool) (items : List (Str × KMat × Nd))
    (hk : ∀ it ∈ items, PlainKey it.1) (hnd : (items.map (·.1)).Nodup) (hv : ∀ it ∈ items, Given D it.2.1 it.2.2) :
    ∃ (w : Writer) (sorted : List (Str × Nd)), (Writer.new hs).write sep path (items.map (fun it => (it.1, it.2.1))) = some w ∧
      sorted.Perm (items.map (fun it => (it.1, it.2.2))) ∧ Holds D w.file sorted := by
  obtain ⟨w, new, h1, h2, _, _, h5⟩ := write_flat sep path items (Writer.new hs) [] rfl hk (by simpa using hnd) hv
  have hkeys : new.map (·.1) = items.map (·.1) := keys_of h5
  have hi : List.Forall₂ (fun (e : Str × DSet) (it : Str × Nd) => e.1 = it.1 ∧ Stored D e.2 it.2) new
      (items.map (fun it => (it.1, it.2.2))) := List.forall₂_map_right_iff.2 h5
  obtain ⟨sorted, hp, hh⟩ := Flat.holds (D := D) (by simpa using h2) (by
    intro e he
    have : e.1 ∈ items.map (·.1) := hkeys ▸ List.mem_map_of_mem he
    obtain ⟨it, hit, he'⟩ := List.mem_map.1 this
    exact he' ▸ hk it hit) (hkeys ▸ hnd) hi
  exact ⟨w, sorted, h1, hp, hh⟩

theorem zipIdx_mapM_int {α β : Type} (l : List α) (i : Nat) (f : α → Option β) :
    (l.zipIdx i).mapM (fun p => f p.1) = l.mapM f := by
  induction l generalizing i with
  | nil => rfl
  | cons a l ih => simp only [List.zipIdx_cons, List.mapM_cons, ih]

theorem mapM_total {α β : Type} (l : List α) (f : α → β) : l.mapM (fun a => some (f a)) = some (l.map f) := by
  induction l with
  | nil => rfl
  | cons a l ih => simp [List.mapM_cons, ih]

/-- with integer `row_offset` and `num_rows` the position in the call does not matter. -/
theorem itemRows_int (tr : Nd → Nd) (off n : Nat) (l : List (Str × Nd)) (i : Nat) :
    (l.zipIdx i).mapM (itemRows tr (.int off) (.int n)) =
      l.mapM (fun it => (rowsOf? off n it.2).map (fun m => (it.1, tr m))) := by
  have : itemRows tr (.int off) (.int n) = fun p : (Str × Nd) × Nat =>
      (fun it : Str × Nd => (rowsOf? off n it.2).map (fun m => (it.1, tr m))) p.1 := by
    funext p
    simp only [itemRows, Arg.at, Option.bind_eq_bind, Option.bind_some]
    rcases rowsOf? off n p.1.2 with _ | m <;> rfl
  rw [this, zipIdx_mapM_int l i (fun it : Str × Nd => (rowsOf? off n it.2).map (fun m => (it.1, tr m)))]

theorem itemRows_whole (tr : Nd → Nd) (l : List (Str × Nd)) (i : Nat) :
    (l.zipIdx i).mapM (itemRows tr (.int 0) (.int 0)) = some (l.map (fun it => (it.1, tr it.2))) := by
  rw [itemRows_int]
  simp only [rowsOf?_zero, Option.map_some]
  exact mapM_total l _

theorem open_holds {D : Decoder} {f : File} {items : List (Str × Nd)} (h : Holds D f items) {fs : Files} {path : Str}
    (hf : fs path = some f) (byKey : Bool) : SeqFile.open fs path 1 1 byKey = some ⟨some f, items.map (·.1), 0⟩ := by
  simp [SeqFile.open, hf, partKeys, h.keys]

/-- Arrays written under distinct keys without slashes: the writer accepts them, and the sequential reader of the
file returns every key once, in increasing order, each with its array (an uncompressed array as it was given, a
compressed one decoded element by element), and is then at the end. -/
theorem C95_write_read (D : Decoder) (sep : Char) (path : Str) (hs : Bool) (items : List (Str × KMat × Nd))
    (hk : ∀ it ∈ items, PlainKey it.1) (hnd : (items.map (·.1)).Nodup) (hv : ∀ it ∈ items, Given D it.2.1 it.2.2) :
    ∃ (w : Writer) (sorted : List (Str × Nd)), (Writer.new hs).write sep path (items.map (fun it => (it.1, it.2.1))) = some w ∧
      sorted.Perm (items.map (fun it => (it.1, it.2.2))) ∧ (sorted.map (·.1)).Pairwise (· < ·) ∧
      ∀ (fs : Files) (tr : Nd → Nd), fs path = some w.file →
        ∃ r r', SeqFile.open fs path 1 1 false = some r ∧
          r.read D tr 0 (.int 0) (.int 0) = some (sorted.map (fun it => (it.1, tr it.2)), r') ∧ r'.eof = true := by
  obtain ⟨w, sorted, h1, h2, h3⟩ := C95_written_file D sep path hs items hk hnd hv
  refine ⟨w, sorted, h1, h2, h3.sorted, fun fs tr hfs => ?_⟩
  refine ⟨_, ⟨some w.file, sorted.map (·.1), sorted.length⟩, open_holds h3 hfs false, ?_, by simp [SeqFile.eof]⟩
  unfold SeqFile.read
  rw [seqFile_loop tr _ _ h3.get _ _ _ rfl rfl (by simp)]
  simp [itemRows_whole]

/-- Writing a key a second time raises, in the same call or in a later one: nothing is overwritten. -/
theorem C95_duplicate_raises (D : Decoder) (sep : Char) (path : Str) (hs : Bool) (items : List (Str × KMat × Nd))
    (hk : ∀ it ∈ items, PlainKey it.1) (hnd : (items.map (·.1)).Nodup) (hv : ∀ it ∈ items, Given D it.2.1 it.2.2)
    (k : Str) (m : KMat) (hm : k ∈ items.map (·.1)) :
    (Writer.new hs).write sep path (items.map (fun it => (it.1, it.2.1)) ++ [(k, m)]) = none := by
  obtain ⟨w, new, h1, h2, _, _, h5⟩ := write_flat sep path items (Writer.new hs) [] rfl hk (by simpa using hnd) hv
  have hkeys : new.map (·.1) = items.map (·.1) := keys_of h5
  obtain ⟨it, hit, rfl⟩ := List.mem_map.1 hm
  unfold Writer.write at h1 ⊢
  rw [List.foldlM_append, h1]
  simp only [Option.bind_eq_bind, Option.bind_some, List.foldlM_cons, List.foldlM_nil, Writer.writeOne, (hk it hit).token, if_true]
  rcases convert m with _ | d
  · rfl
  · simp only [Option.bind_some, List.nil_append] at h2 ⊢
    rw [Flat.create_dup h2 (hk it hit) d (by rw [hkeys]; exact hm)]
    rfl

/-! ### keys with slashes -/

/-- every file made by `create_dataset` calls: paths are not empty, have no empty component or slash, and none is
a prefix of another. -/
structure Good (f : File) : Prop where
  ne : ∀ e ∈ f.sets, e.1 ≠ []
  comp : ∀ e ∈ f.sets, ∀ c ∈ e.1, c ≠ [] ∧ '/' ∉ c
  anti : f.sets.Pairwise (fun a b => ¬ a.1 <+: b.1 ∧ ¬ b.1 <+: a.1)

theorem components_clean (k : Str) : ∀ c ∈ components k, '/' ∉ c := by
  induction k with
  | nil => simp [components]
  | cons a cs ih =>
    intro c hc
    unfold components at hc
    split at hc
    · rcases List.mem_cons.1 hc with rfl | h
      · simp
      · exact ih c h
    · rename_i ha
      generalize hcs : components cs = q at hc ih
      cases q with
      | nil => simp at hc; subst hc; simp [Ne.symm ha]
      | cons x xs =>
        simp only [List.mem_cons] at hc
        rcases hc with rfl | h
        · have := ih x (by simp)
          simp [this, Ne.symm ha]
        · exact ih c (by simp [h])

theorem Good.create {f f' : File} (h : Good f) {k : Str} {d : DSet} (hc : f.create k d = some f') :
    Good f' ∧ f'.sets = f.sets ++ [(h5path k, d)] := by
  unfold File.create at hc
  simp only at hc
  split at hc
  · simp at hc
  · rename_i hn
    obtain rfl := Option.some.inj hc
    simp only [Bool.or_eq_true, not_or, beq_iff_eq, List.any_eq_true, not_exists, not_and, List.isPrefixOf_iff_prefix] at hn
    obtain ⟨⟨_, h2⟩, h3⟩ := hn
    refine ⟨⟨?_, ?_, ?_⟩, rfl⟩
    · intro e he
      rcases List.mem_append.1 he with he | he
      · exact h.ne e he
      · simp at he; subst he; exact h2
    · intro e he
      rcases List.mem_append.1 he with he | he
      · exact h.comp e he
      · simp at he; subst he
        intro c hc
        simp only [h5path, List.mem_filter, decide_eq_true_eq] at hc
        exact ⟨hc.2, components_clean k c hc.1⟩
    · rw [List.pairwise_append]
      refine ⟨h.anti, by simp, ?_⟩
      intro a ha b hb
      simp at hb; subst hb
      exact h3 a ha

theorem Good.write {sep : Char} {path : Str} {rs : List (Str × KMat)} {w w' : Writer} (h : Good w.file)
    (hw : w.write sep path rs = some w') :
    Good w'.file ∧ (∀ e ∈ w.file.sets, e ∈ w'.file.sets) ∧
      ∀ r ∈ rs, ∃ d, convert r.2 = some d ∧ (h5path r.1, d) ∈ w'.file.sets := by
  induction rs generalizing w with
  | nil =>
    simp only [Writer.write, List.foldlM_nil] at hw
    obtain rfl := Option.some.inj hw
    exact ⟨h, fun e he => he, by simp⟩
  | cons r rs ih =>
    rw [Writer.write, List.foldlM_cons] at hw
    obtain ⟨w1, h1, h2⟩ := Option.bind_eq_some_iff.1 hw
    unfold Writer.writeOne at h1
    split at h1
    · obtain ⟨d, hd, h1⟩ := Option.bind_eq_some_iff.1 h1
      obtain ⟨f, hf, h1⟩ := Option.bind_eq_some_iff.1 h1
      obtain rfl := Option.some.inj h1
      obtain ⟨hg, hs⟩ := h.create hf
      obtain ⟨g1, g2, g3⟩ := ih hg h2
      refine ⟨g1, fun e he => g2 e (by rw [hs]; simp [he]), ?_⟩
      intro x hx
      rcases List.mem_cons.1 hx with rfl | hx
      · exact ⟨d, hd, g2 _ (by rw [hs]; simp)⟩
      · exact g3 x hx
    · simp at h1

theorem Good.lookup {f : File} (h : Good f) {p : List Str} {d : DSet} (hm : (p, d) ∈ f.sets) : f.sets.lookup p = some d := by
  obtain ⟨sets⟩ := f
  have ha := h.anti
  simp only at hm ha ⊢
  clear h
  induction sets with
  | nil => simp at hm
  | cons a l ih =>
    rw [List.pairwise_cons] at ha
    rcases List.mem_cons.1 hm with rfl | hm
    · simp [List.lookup]
    · have hne : p ≠ a.1 := by
        rintro rfl
        exact (ha.1 _ hm).1 (List.prefix_refl _)
      have h2 : (p == a.1) = false := by simp [hne]
      simp only [List.lookup, h2]
      exact ih hm ha.2

theorem loop_reach_none {D : Decoder} (tr : Nd → Nd) (offs ns : Arg) {r : SeqFile} (j : Nat) (hj : r.cur ≤ j) (hlt : j < r.keys.length)
    (hbad : ∀ f, r.f = some f → ∀ k, r.keys[j]? = some k → f.get k = none) (k i : Nat) (hk : j < r.cur + k) :
    SeqFile.loop D tr offs ns k i r = none := by
  induction k generalizing i r with
  | zero => omega
  | succ k ih =>
    rw [SeqFile.loop]
    have he : r.eof = false := by simp [SeqFile.eof]; omega
    rw [he]
    simp only [Bool.false_eq_true, if_false]
    rcases hone : r.readOne D tr offs ns i with _ | ⟨x, r1⟩
    · rfl
    · simp only [Option.bind_eq_bind, Option.bind_some]
      unfold SeqFile.readOne at hone
      obtain ⟨key, hkey, hone⟩ := Option.bind_eq_some_iff.1 hone
      obtain ⟨o, ho, hone⟩ := Option.bind_eq_some_iff.1 hone
      obtain ⟨n, hn, hone⟩ := Option.bind_eq_some_iff.1 hone
      obtain ⟨f, hf, hone⟩ := Option.bind_eq_some_iff.1 hone
      obtain ⟨d, hd, hone⟩ := Option.bind_eq_some_iff.1 hone
      obtain ⟨m, hm, hone⟩ := Option.bind_eq_some_iff.1 hone
      obtain ⟨rfl, rfl⟩ := Prod.mk.inj (Option.some.inj hone)
      by_cases hjc : r.cur = j
      · subst hjc
        rw [hbad f hf key hkey] at hd
        simp at hd
      · rw [ih (r := { r with cur := r.cur + 1 }) (by show r.cur + 1 ≤ j; omega) hlt hbad (i + 1)
          (by show j < r.cur + 1 + k; omega)]
        rfl

/-- A key with a slash between two names is accepted by the writer, and the dataset can be read back by its key
with random access; but `read()` of the sequential reader of the file raises: the file lists the group, not the
dataset. -/
theorem C95_slash_key (D : Decoder) (sep : Char) (path : Str) (hs : Bool) (rs : List (Str × KMat)) (w : Writer)
    (hw : (Writer.new hs).write sep path rs = some w) (r : Str × KMat) (hr : r ∈ rs) (v : Nd) (hv : Given D r.2 v)
    (hsl : 2 ≤ (h5path r.1).length) (tr : Nd → Nd) :
    randFileRead D tr (some w.file) false [r.1] (.int 0) (.int 0) = some [tr v] ∧
    ∀ (fs : Files), fs path = some w.file →
      ∃ q, SeqFile.open fs path 1 1 false = some q ∧ q.read D tr 0 (.int 0) (.int 0) = none := by
  have hg0 : Good (Writer.new hs).file := ⟨by simp [Writer.new], by simp [Writer.new], by simp [Writer.new]⟩
  obtain ⟨hg, _, h3⟩ := hg0.write hw
  obtain ⟨d, hd, hm⟩ := h3 r hr
  obtain ⟨d', hd', hst⟩ := convert_given hv
  rw [hd] at hd'
  obtain rfl := Option.some.inj hd'
  refine ⟨?_, fun fs hfs => ?_⟩
  · have hget : w.file.get r.1 = some d := hg.lookup hm
    have hhas : w.file.has r.1 = true := by
      unfold File.has
      simp only [Bool.or_eq_true, List.any_eq_true, List.isPrefixOf_iff_prefix]
      exact Or.inr ⟨_, hm, List.prefix_refl _⟩
    simp [randFileRead, Arg.fits, randFileOne, hhas, Arg.at, hget, readSet_stored hst, rowsOf?_zero]
  · refine ⟨⟨some w.file, w.file.keys, 0⟩, by simp [SeqFile.open, hfs, partKeys], ?_⟩
    generalize hpp : h5path r.1 = p at hm hsl
    match p, hm, hsl with
    | c :: b :: rest, hm, _ =>
      obtain ⟨hc1, hc2⟩ := hg.comp _ hm c (by simp)
      have hcp : h5path c = [c] := by simp [h5path, components_noslash hc2, hc1]
      have hck : c ∈ w.file.keys := by
        unfold File.keys
        rw [mem_npUnique, List.mem_filterMap]
        exact ⟨_, hm, rfl⟩
      have hnone : w.file.get c = none := by
        unfold File.get
        rw [hcp, List.lookup_eq_none_iff]
        intro e he
        by_contra hcon
        have hee : [c] = e.1 := by simpa using hcon
        rcases List.mem_iff_getElem.1 he with ⟨i, hi, hie⟩
        rcases List.mem_iff_getElem.1 hm with ⟨j, hj, hje⟩
        have hpre : e.1 <+: c :: b :: rest := by rw [← hee]; exact ⟨b :: rest, rfl⟩
        rcases lt_trichotomy i j with hij | hij | hij
        · have := (List.pairwise_iff_getElem.1 hg.anti) i j hi hj hij
          rw [hie, hje] at this
          exact this.1 hpre
        · subst hij
          rw [hie] at hje
          rw [hje] at hee
          simp at hee
        · have := (List.pairwise_iff_getElem.1 hg.anti) j i hj hi hij
          rw [hie, hje] at this
          exact this.2 hpre
      obtain ⟨j, hj, hjc⟩ := List.mem_iff_getElem.1 hck
      unfold SeqFile.read
      refine loop_reach_none tr _ _ j (by simp) hj ?_ _ _ (by simpa using hj)
      intro f hf k hk
      simp only at hf hk
      obtain rfl := Option.some.inj hf
      rw [List.getElem?_eq_getElem hj, hjc] at hk
      obtain rfl := Option.some.inj hk
      exact hnone

/-! ## C96 -/

/-- where the reader stands after `read(k)` from position `cur` in a file of `N` records (`k = 0`: to the end). -/
def advance (N cur k : Nat) : Nat := if k = 0 then N else min N (cur + k)

/-- One call `read(k)` returns the next `k` records (all that are left for `k = 0`), and the reader moves after
them. -/
theorem C96_read (D : Decoder) (f : File) (items : List (Str × Nd)) (h : Holds D f items) (tr : Nd → Nd) (cur k : Nat)
    (hc : cur ≤ items.length) :
    SeqFile.read D tr ⟨some f, items.map (·.1), cur⟩ k (.int 0) (.int 0) =
      some (((items.take (advance items.length cur k)).drop cur).map (fun it => (it.1, tr it.2)),
        ⟨some f, items.map (·.1), advance items.length cur k⟩) := by
  unfold SeqFile.read
  rw [seqFile_loop tr _ _ h.get _ _ _ rfl rfl hc, itemRows_whole]
  simp only [Option.map_some, List.length_map, Option.some.injEq, Prod.mk.injEq, SeqFile.mk.injEq, true_and]
  unfold advance
  by_cases hk : k = 0
  · subst hk
    simp only [if_true]
    refine ⟨?_, by omega⟩
    rw [List.take_of_length_le (by simp), List.take_of_length_le (le_refl _)]
  · simp only [if_neg hk]
    refine ⟨?_, by omega⟩
    rw [List.drop_take]
    congr 1
    by_cases hle : cur + k ≤ items.length
    · rw [Nat.min_eq_right hle, Nat.add_sub_cancel_left]
    · rw [Nat.min_eq_left (by omega), List.take_of_length_le (by simp; omega), List.take_of_length_le (by simp)]

/-- `for key, data in reader`: gives the complete records from where the reader is, in order, and stops after the last. -/
theorem C96_iterate (D : Decoder) (f : File) (items : List (Str × Nd)) (h : Holds D f items) (tr : Nd → Nd) (n cur : Nat) (hc : cur ≤ items.length) :
    SeqFile.iter D tr n ⟨some f, items.map (·.1), cur⟩ =
      some (((items.drop cur).take n).map (fun it => (it.1, tr it.2)), decide (items.length - cur < n)) := by
  induction n generalizing cur with
  | zero => simp [SeqFile.iter]
  | succ n ih =>
    have h1 := C96_read D f items h tr cur 1 hc
    have ha : advance items.length cur 1 = min items.length (cur + 1) := rfl
    rcases Nat.eq_or_lt_of_le hc with rfl | hlt
    · have e : SeqFile.next D tr ⟨some f, items.map (·.1), items.length⟩ = some (none, ⟨some f, items.map (·.1), items.length⟩) := by
        unfold SeqFile.next
        rw [h1, ha, Nat.min_eq_left (by omega)]
        simp
      simp [SeqFile.iter, e]
    · have e : SeqFile.next D tr ⟨some f, items.map (·.1), cur⟩ = some (some (items[cur].1, tr items[cur].2), ⟨some f, items.map (·.1), cur + 1⟩) := by
        unfold SeqFile.next
        rw [h1, ha, Nat.min_eq_right (by omega), List.drop_take, List.drop_eq_getElem_cons hlt, Nat.add_sub_cancel_left]
        rfl
      rw [SeqFile.iter, e]
      simp only [Option.bind_eq_bind, Option.bind_some]
      rw [ih (cur + 1) (by omega), List.drop_eq_getElem_cons hlt]
      simp only [Option.bind_some, List.take_succ_cons, List.map_cons]
      have e2 : decide (items.length - (cur + 1) < n) = decide (items.length - cur < n + 1) := decide_eq_decide.2 (by omega)
      rw [e2]
      rfl

theorem advance_ge {N cur k : Nat} (h : cur ≤ N) : cur ≤ advance N cur k := by
  unfold advance; split <;> omega

theorem advance_le {N cur k : Nat} : advance N cur k ≤ N := by
  unfold advance; split <;> omega

theorem foldl_advance_ge {N : Nat} (ks : List Nat) {cur : Nat} (h : cur ≤ N) :
    cur ≤ ks.foldl (advance N) cur ∧ ks.foldl (advance N) cur ≤ N := by
  induction ks generalizing cur with
  | nil => exact ⟨le_refl _, h⟩
  | cons k ks ih =>
    have := ih (cur := advance N cur k) advance_le
    exact ⟨le_trans (advance_ge h) this.1, this.2⟩

/-- Any sequence of calls `read(k1), read(k2), ..` from the beginning returns, one after the other, the records
of the file in order, none twice and none missing, up to where the last call stopped; the reader is at the end of
the file exactly when all were returned. -/
theorem C96_batches (D : Decoder) (f : File) (items : List (Str × Nd)) (h : Holds D f items) (tr : Nd → Nd) (ks : List Nat)
    (cur : Nat) (hc : cur ≤ items.length) :
    ∃ outs r, readMany (fun r k => SeqFile.read D tr r k (.int 0) (.int 0)) ⟨some f, items.map (·.1), cur⟩ ks = some (outs, r) ∧
      outs.flatten = ((items.take (ks.foldl (advance items.length) cur)).drop cur).map (fun it => (it.1, tr it.2)) ∧
      r = ⟨some f, items.map (·.1), ks.foldl (advance items.length) cur⟩ ∧
      (r.eof = true ↔ ks.foldl (advance items.length) cur = items.length) := by
  induction ks generalizing cur with
  | nil => exact ⟨[], _, rfl, by simp, rfl, by simp [SeqFile.eof]⟩
  | cons k ks ih =>
    obtain ⟨outs, r, h1, h2, h3, h4⟩ := ih (advance items.length cur k) advance_le
    refine ⟨(((items.take (advance items.length cur k)).drop cur).map (fun it => (it.1, tr it.2))) :: outs, r, ?_, ?_, h3, h4⟩
    · simp only [readMany]
      rw [C96_read D f items h tr cur k hc]
      simp only
      rw [h1]
      rfl
    · rw [List.flatten_cons, h2, List.foldl_cons, ← List.map_append]
      congr 1
      have hle := (foldl_advance_ge ks (cur := advance items.length cur k) advance_le).1
      set a := advance items.length cur k
      set e := ks.foldl (advance items.length) a
      have hca : cur ≤ a := advance_ge hc
      have e1 : (items.take a).drop cur = ((items.take e).drop cur).take (a - cur) := by
        rw [← List.drop_take, List.take_take]
        congr 2
        omega
      have e2 : (items.take e).drop a = ((items.take e).drop cur).drop (a - cur) := by
        rw [List.drop_drop]
        congr 1
        omega
      rw [e1, e2, List.take_append_drop]

/-- `read_shapes(k)` moves the reader exactly as `read(k)` and returns the keys and the shapes of the same arrays;
with `assert_same_dim` it raises when their last dimensions are not all equal. -/
theorem C96_read_shapes (D : Decoder) (f : File) (items : List (Str × Nd)) (h : Holds D f items) (cur k : Nat) (same : Bool)
    (hc : cur ≤ items.length) :
    let block := (items.take (advance items.length cur k)).drop cur
    SeqFile.readShapes ⟨some f, items.map (·.1), cur⟩ k same =
      if same = true ∧ ¬ (∀ a ∈ block, ∀ b ∈ block, a.2.shape.getLast? = b.2.shape.getLast?) then none
      else some (block.map (fun it => (it.1, it.2.shape.map Int.ofNat)),
        ⟨some f, items.map (·.1), advance items.length cur k⟩) := by
  intro block
  unfold SeqFile.readShapes
  rw [seqFile_shapeLoop h.get _ _ rfl rfl hc]
  simp only [List.length_map, Option.bind_eq_bind, Option.bind_some]
  have hb : (items.drop cur).take (if k = 0 then items.length - cur else k) = block := by
    simp only [block, advance]
    by_cases hk : k = 0
    · subst hk
      simp only [if_true]
      rw [List.take_of_length_le (by simp), List.take_of_length_le (le_refl _)]
    · simp only [if_neg hk]
      rw [List.drop_take]
      by_cases hle : cur + k ≤ items.length
      · rw [Nat.min_eq_right hle, Nat.add_sub_cancel_left]
      · rw [Nat.min_eq_left (by omega), List.take_of_length_le (by simp; omega), List.take_of_length_le (by simp)]
  have hcur : cur + min (if k = 0 then items.length - cur else k) (items.length - cur) = advance items.length cur k := by
    unfold advance; split <;> omega
  rw [hb, hcur]
  have hsd : (sameDim ((block.map (fun it => (it.1, it.2.shape.map Int.ofNat))).map (·.2)) = true ∨ block = []) ↔
      ∀ a ∈ block, ∀ b ∈ block, a.2.shape.getLast? = b.2.shape.getLast? := by
    have hl : ∀ a b : Nd, (a.shape.map Int.ofNat).getLast? = (b.shape.map Int.ofNat).getLast? ↔
        a.shape.getLast? = b.shape.getLast? := by
      intro a b
      rw [List.getLast?_map, List.getLast?_map]
      exact (Option.map_injective (fun x y h => Int.ofNat.inj h)).eq_iff
    clear hb
    clear_value block
    cases block with
    | nil => simp
    | cons x xs =>
      simp only [List.map_cons, List.map_map, sameDim, List.all_map, List.all_eq_true, Function.comp, beq_iff_eq, reduceCtorEq,
        or_false]
      constructor
      · intro hh a ha b hb
        have key : ∀ y ∈ x :: xs, y.2.shape.getLast? = x.2.shape.getLast? := by
          intro y hy
          rcases List.mem_cons.1 hy with rfl | hy
          · rfl
          · exact (hl _ _).1 (hh y hy)
        rw [key a ha, key b hb]
      · intro hh y hy
        exact (hl _ _).2 (hh y (by simp [hy]) x (by simp))
  refine if_congr ?_ rfl rfl
  simp only [Bool.and_eq_true, Bool.not_eq_true', and_assoc]
  refine and_congr_right (fun _ => ?_)
  rw [← hsd, not_or, and_comm, Bool.not_eq_true]
  refine and_congr_right (fun _ => ?_)
  simp

/-- `reset()` puts an open reader back to the first record; `close()` makes every later read of a record raise, and
`reset()` after `close()` does nothing. -/
theorem C96_reset_close (D : Decoder) (tr : Nd → Nd) (f : File) (keys : List Str) (cur : Nat) :
    SeqFile.reset ⟨some f, keys, cur⟩ = ⟨some f, keys, 0⟩ ∧
    SeqFile.reset (SeqFile.close ⟨some f, keys, cur⟩) = SeqFile.close ⟨some f, keys, cur⟩ ∧
    ∀ k offs ns, cur < keys.length → SeqFile.read D tr (SeqFile.close ⟨some f, keys, cur⟩) k offs ns = none := by
  refine ⟨rfl, rfl, fun k offs ns hlt => ?_⟩
  unfold SeqFile.read
  refine loop_reach_none tr offs ns cur (by simp [SeqFile.close]) (by simpa [SeqFile.close]) ?_ _ _ ?_
  · intro f hf; simp [SeqFile.close] at hf
  · simp only [SeqFile.close]; split <;> omega

/-! ### parts -/

theorem npInverse_sorted {l : List Str} (h : l.Pairwise (· < ·)) : npInverse l = List.range l.length := by
  have hnd : l.Nodup := h.imp (fun h => ne_of_lt h)
  unfold npInverse
  rw [npUnique_of_sorted h]
  apply List.ext_getElem (by simp)
  intro i h1 h2
  simp only [List.getElem_map, List.getElem_range]
  have := hnd.idxOf_getElem i (by simpa using h1)
  convert this

theorem idsEq_range {n i : Nat} (h : i < n) : idsEq (List.range n) i = [i] := by
  have h1 : (idsEq (List.range n) i).Perm [i] := by
    unfold idsEq
    rw [List.perm_ext_iff_of_nodup (nonzero_nodup _) (List.nodup_singleton _)]
    intro a
    rw [mem_nonzero, List.getElem?_map]
    by_cases ha : a < n
    · simp [ha]
    · simp [ha]; omega
  exact List.perm_singleton.1 h1

/-- For the distinct keys of a file `split_by_key` changes nothing: every key is its own group. -/
theorem C96_split_by_key_same (keys : List Str) (hs : keys.Pairwise (· < ·)) (hne : keys ≠ []) (part parts : Nat)
    (h1 : 1 ≤ part) (h2 : part ≤ parts) : partKeys keys part parts true = partKeys keys part parts false := by
  unfold partKeys
  split
  · simp only [if_true, Bool.false_eq_true, if_false]
    obtain ⟨r, hr, hg⟩ := splitGroup_eq (a := keys) (key := keys) rfl hne h1 h2
    rw [hr, splitList_eq h1 h2]
    rw [npInverse_sorted hs, npUnique_of_sorted hs] at hg
    have hle : cut part keys.length parts ≤ keys.length := cut_le h2 (by omega)
    have hfm : (List.range' (cut (part - 1) keys.length parts)
        (cut part keys.length parts - cut (part - 1) keys.length parts)).flatMap (idsEq (List.range keys.length)) =
        List.range' (cut (part - 1) keys.length parts) (cut part keys.length parts - cut (part - 1) keys.length parts) := by
      rw [List.flatMap_congr (g := fun i => [i])]
      · simp
      · intro i hi
        rw [List.mem_range'_1] at hi
        exact idsEq_range (by omega)
    rw [hfm] at hg
    have hsl := splitList_eq (a := keys) h1 h2
    unfold splitList at hsl
    rw [if_neg (by omega)] at hsl
    simp only [hg, Option.map_some, Option.some.injEq, Prod.mk.injEq] at hsl ⊢
    exact hsl.1
  · rfl

/-- The parts `1..num_parts` of a file, each read to its end and put one after the other, are the records of the
file: each in exactly one part. (`split_by_key` of a file without datasets raises.) -/
theorem C96_parts (D : Decoder) (f : File) (items : List (Str × Nd)) (h : Holds D f items) (fs : Files) (path : Str)
    (hf : fs path = some f) (tr : Nd → Nd) (P : Nat) (hP : 1 ≤ P) (byKey : Bool) (hne : byKey = true → items ≠ []) :
    ∃ outs, (List.range' 1 P).mapM (fun idx =>
        ((SeqFile.open fs path idx P byKey).bind (fun r => SeqFile.read D tr r 0 (.int 0) (.int 0))).map (·.1)) = some outs ∧
      outs.flatten = items.map (fun it => (it.1, tr it.2)) := by
  have hpart : ∀ idx, 1 ≤ idx → idx ≤ P → ∀ sub loc, splitList items idx P = some (sub, loc) →
      ((SeqFile.open fs path idx P byKey).bind (fun r => SeqFile.read D tr r 0 (.int 0) (.int 0))).map (·.1) =
        some (sub.map (fun it => (it.1, tr it.2))) := by
    intro idx h1 h2 sub loc hsub
    have hb : partKeys (items.map (·.1)) idx P byKey = partKeys (items.map (·.1)) idx P false := by
      cases byKey with
      | false => rfl
      | true => exact C96_split_by_key_same _ h.sorted (by simpa using hne rfl) idx P h1 h2
    rw [splitList_eq h1 h2] at hsub
    have hsub := (Prod.mk.inj (Option.some.inj hsub)).1
    have hk : partKeys (items.map (·.1)) idx P false = some (sub.map (·.1)) := by
      unfold partKeys
      by_cases hp : 1 < P
      · simp only [if_pos hp, Bool.false_eq_true, if_false]
        rw [splitList_eq h1 h2, ← hsub]
        simp [List.map_take, List.map_drop]
      · have hP1 : P = 1 := by omega
        have hi1 : idx = 1 := by omega
        subst hP1 hi1
        rw [if_neg hp, ← hsub]
        simp [cut]
    have hget : ∀ it ∈ sub, ∃ d, f.get it.1 = some d ∧ Stored D d it.2 := by
      intro it hit
      rw [← hsub] at hit
      exact h.get it (List.mem_of_mem_drop (List.mem_of_mem_take hit))
    unfold SeqFile.open
    rw [hf]
    simp only [Option.bind_eq_bind, Option.bind_some, h.keys, hb, hk, Option.pure_def]
    unfold SeqFile.read
    rw [seqFile_loop tr _ _ hget _ _ _ rfl rfl (by simp), itemRows_whole]
    simp
  obtain ⟨parts, hp1, hp2, _, _⟩ := C01_split_list_partition items P hP
  refine ⟨parts.map (fun p => p.1.map (fun it => (it.1, tr it.2))), ?_, ?_⟩
  · rw [mapM_eq_some_iff] at hp1 ⊢
    rw [List.map_map]
    apply List.ext_getElem
    · have := congrArg List.length hp1
      simpa using this
    · intro i hi1 hi2
      have hi1' : i < P := by simpa using hi1
      have hi2' : i < parts.length := by simpa using hi2
      have hpi : splitList items (1 + i) P = some parts[i] := by
        have := List.ext_getElem_iff.1 hp1
        have := this.2 i (by simpa using hi1') (by simpa using hi2')
        simpa using this
      have := hpart (1 + i) (by omega) (by omega) parts[i].1 parts[i].2 hpi
      simpa using this
  · rw [← hp2, List.map_flatten, List.map_map]
    rfl

/-! ## C97 -/

/-- `read(.., row_offset, num_rows)` on a sequential reader: for each of the next records the rows `o..o+n` of its
array (`n = 0`: from `o` to the end - nothing, without an exception, when `o` is beyond the end), and an exception
when some record does not have `n > 0` rows after row `o` or a list of ranges is too short. -/
theorem C97_sequential_rows (D : Decoder) (f : File) (items : List (Str × Nd)) (h : Holds D f items) (tr : Nd → Nd) (cur k : Nat)
    (hc : cur ≤ items.length) (offs ns : Arg) :
    SeqFile.read D tr ⟨some f, items.map (·.1), cur⟩ k offs ns =
      (((((items.take (advance items.length cur k)).drop cur).zipIdx).mapM (fun (p : (Str × Nd) × Nat) => (do
          let o ← offs.at p.2
          let n ← ns.at p.2
          let m ← rowsOf? o n p.1.2
          return (p.1.1, tr m) : Option (Str × Nd))))).map (fun xs => (xs, ⟨some f, items.map (·.1), advance items.length cur k⟩)) := by
  unfold SeqFile.read
  rw [seqFile_loop tr _ _ h.get _ _ _ rfl rfl hc]
  simp only [List.length_map]
  have hb : (items.drop cur).take (if k = 0 then items.length - cur else k) =
      (items.take (advance items.length cur k)).drop cur := by
    simp only [advance]
    by_cases hk : k = 0
    · subst hk
      simp only [if_true]
      rw [List.take_of_length_le (by simp), List.take_of_length_le (le_refl _)]
    · simp only [if_neg hk]
      rw [List.drop_take]
      by_cases hle : cur + k ≤ items.length
      · rw [Nat.min_eq_right hle, Nat.add_sub_cancel_left]
      · rw [Nat.min_eq_left (by omega), List.take_of_length_le (by simp; omega), List.take_of_length_le (by simp)]
  have hcur : cur + min (if k = 0 then items.length - cur else k) (items.length - cur) = advance items.length cur k := by
    unfold advance; split <;> omega
  rw [hb, hcur]
  rfl

/-- what random access should return for one key: `o`, `n` is the range asked for it. -/
def wanted (items : List (Str × Nd)) (permissive : Bool) (tr : Nd → Nd) (o n : Option Nat) (k : Str) : Option Nd :=
  match items.lookup k with
  | some v => do
    let o ← o
    let n ← n
    let m ← rowsOf? o n v
    return tr m
  | none => if permissive then some (.vec .f32 []) else none

theorem mapM_congr' {α β : Type} {l : List α} {f g : α → Option β} (h : ∀ a ∈ l, f a = g a) : l.mapM f = l.mapM g := by
  induction l with
  | nil => rfl
  | cons a l ih =>
    rw [List.mapM_cons, List.mapM_cons, h a (by simp), ih (fun x hx => h x (by simp [hx]))]

theorem Holds.cases {D : Decoder} {f : File} {items : List (Str × Nd)} (h : Holds D f items) {k : Str} (hk : PlainKey k) :
    (items.lookup k = none ∧ f.has k = false) ∨
    ∃ v d, items.lookup k = some v ∧ f.has k = true ∧ f.get k = some d ∧ Stored D d v := by
  rcases hl : items.lookup k with _ | v
  · left
    refine ⟨rfl, ?_⟩
    rw [← Bool.not_eq_true, h.has _ hk]
    intro hm
    obtain ⟨it, hit, he⟩ := List.mem_map.1 hm
    have := List.lookup_eq_none_iff.1 hl it hit
    simp [he] at this
  · right
    obtain ⟨l1, l2, he, _⟩ := List.lookup_eq_some_iff.1 hl
    have hm : (k, v) ∈ items := by rw [he]; simp
    obtain ⟨d, hd, hst⟩ := h.get _ hm
    exact ⟨v, d, rfl, (h.has _ hk).2 (List.mem_map.2 ⟨_, hm, rfl⟩), hd, hst⟩

/-- Random access: for each key of the list, in order and with repetitions, the rows asked for of its array; for a
key that is not in the file an empty vector when `permissive`, else an exception; lists of ranges must be as long
as the list of keys. -/
theorem C97_random_rows (D : Decoder) (f : File) (items : List (Str × Nd)) (h : Holds D f items) (tr : Nd → Nd) (permissive : Bool)
    (keys : List Str) (hk : ∀ k ∈ keys, PlainKey k) (offs ns : Arg) :
    randFileRead D tr (some f) permissive keys offs ns =
      if offs.fits keys.length = true ∧ ns.fits keys.length = true then
        keys.zipIdx.mapM (fun p => wanted items permissive tr (offs.at p.2) (ns.at p.2) p.1)
      else none := by
  unfold randFileRead
  simp only [Bool.and_eq_true]
  split
  · apply mapM_congr'
    intro p hp
    have hkp : PlainKey p.1 := hk _ (List.fst_mem_of_mem_zipIdx hp)
    simp only [Option.bind_some, randFileOne]
    rcases h.cases hkp with ⟨hl, hh⟩ | ⟨v, d, hl, hh, hd, hst⟩
    · simp [hh, emptyNd, wanted, hl]
    · simp only [hh, if_true, hd, wanted, hl, Option.bind_eq_bind, Option.bind_some, readSet_stored hst]
      rcases offs.at p.2 with _ | o
      · rfl
      rcases ns.at p.2 with _ | n
      · rfl
      simp only [Option.bind_some]
      rcases rowsOf? o n v with _ | m <;> rfl
  · rfl

/-- After `close()` random access raises for any key. -/
theorem C97_random_closed (D : Decoder) (tr : Nd → Nd) (permissive : Bool) (keys : List Str) (hne : keys ≠ []) (offs ns : Arg) :
    randFileRead D tr none permissive keys offs ns = none := by
  unfold randFileRead
  split
  · cases keys with
    | nil => exact absurd rfl hne
    | cons a l => simp [List.zipIdx_cons, List.mapM_cons]
  · rfl

/-- `read_shapes(keys)` gives the shapes of the arrays that `read(keys)` returns: an empty vector has shape (0,). -/
theorem C97_random_shapes (D : Decoder) (f : File) (items : List (Str × Nd)) (h : Holds D f items) (permissive : Bool)
    (keys : List Str) (hk : ∀ k ∈ keys, PlainKey k) :
    randFileShapes (some f) permissive keys false =
      (randFileRead D id (some f) permissive keys (.int 0) (.int 0)).map (List.map (fun m => m.shape.map Int.ofNat)) := by
  rw [C97_random_rows D f items h id permissive keys hk (.int 0) (.int 0)]
  simp only [Arg.fits, and_self, if_true, Arg.at]
  rw [zipIdx_mapM_int keys 0 (wanted items permissive id (some 0) (some 0))]
  unfold randFileShapes
  simp only [Option.bind_eq_bind, Option.bind_some, Bool.false_and, Bool.false_eq_true, if_false, Option.bind_fun_some]
  induction keys with
  | nil => rfl
  | cons k keys ih =>
    have hkk := hk k (by simp)
    have ih := ih (fun x hx => hk x (by simp [hx]))
    rw [List.mapM_cons, List.mapM_cons]
    have hone : randFileShapeOne f permissive k = (wanted items permissive id (some 0) (some 0) k).map (fun m => m.shape.map Int.ofNat) := by
      unfold randFileShapeOne wanted
      rcases h.cases hkk with ⟨hl, hh⟩ | ⟨v, d, hl, hh, hd, hst⟩
      · rw [hh, hl]
        cases permissive <;> simp [Nd.shape]
      · rw [hh, hd, hl]
        simp [DSet.ishape, shape_stored hst, rowsOf?_zero]
    rw [hone, ih]
    rcases wanted items permissive id (some 0) (some 0) k with _ | v
    · rfl
    · simp only [Option.map_some, Option.bind_eq_bind, Option.bind_some]
      rcases (keys.mapM (wanted items permissive id (some 0) (some 0))) with _ | vs <;> rfl

/-- `read_shapes(keys)` of an empty list of keys raises unless `assert_same_dim=False`; the same call on a
sequential reader at its end returns empty lists. -/
theorem C97_empty_shapes (f : File) (permissive : Bool) (keys : List Str) :
    randFileShapes (some f) permissive [] true = none ∧ randFileShapes (some f) permissive [] false = some [] ∧
    SeqFile.readShapes ⟨some f, keys, keys.length⟩ 0 true = some ([], ⟨some f, keys, keys.length⟩) := by
  refine ⟨rfl, rfl, ?_⟩
  simp [SeqFile.readShapes, SeqFile.shapeLoop]

end Hyp.H5
