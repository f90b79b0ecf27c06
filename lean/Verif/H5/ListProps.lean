import Verif.H5.MoreProps

/-! C97, C98 (continued): per-record ranges spelled out, shapes of the script readers. -/

namespace Hyp.H5
open Hyp.Text Hyp.Kaldi Hyp.ListUtils

theorem zipIdx_mapM_lists {α β : Type} (l : List α) (ofs ns : List Nat) (i : Nat) (h1 : i + l.length ≤ ofs.length)
    (h2 : i + l.length ≤ ns.length) (G : α → Option Nat → Option Nat → Option β) :
    (l.zipIdx i).mapM (fun (p : α × Nat) => G p.1 ofs[p.2]? ns[p.2]?) =
      (l.zip ((ofs.drop i).zip (ns.drop i))).mapM (fun (q : α × Nat × Nat) => G q.1 (some q.2.1) (some q.2.2)) := by
  induction l generalizing i with
  | nil => rfl
  | cons a l ih =>
    simp only [List.length_cons] at h1 h2
    rw [List.drop_eq_getElem_cons (by omega : i < ofs.length), List.drop_eq_getElem_cons (by omega : i < ns.length)]
    simp only [List.zipIdx_cons, List.zip_cons_cons, List.mapM_cons]
    rw [ih (i + 1) (by omega) (by omega)]
    rw [List.getElem?_eq_getElem (by omega), List.getElem?_eq_getElem (by omega)]

/-- Random access with one row range per key: the `j`-th key gets the `j`-th offset and the `j`-th number of rows; lists
of another length than the list of keys raise. -/
theorem C97_random_lists (D : Decoder) (f : File) (items : List (Str × Nd)) (h : Holds D f items) (tr : Nd → Nd) (permissive : Bool)
    (keys : List Str) (hk : ∀ k ∈ keys, PlainKey k) (ofs ns : List Nat) :
    (ofs.length = keys.length → ns.length = keys.length →
      randFileRead D tr (some f) permissive keys (.list ofs) (.list ns) =
        (keys.zip (ofs.zip ns)).mapM (fun (q : Str × Nat × Nat) => wanted items permissive tr (some q.2.1) (some q.2.2) q.1)) ∧
    (∀ a : Arg, ofs.length ≠ keys.length → randFileRead D tr (some f) permissive keys (.list ofs) a = none ∧
      randFileRead D tr (some f) permissive keys a (.list ofs) = none) := by
  constructor
  · intro h1 h2
    rw [C97_random_rows D f items h tr permissive keys hk]
    simp only [Arg.fits, h1, h2, decide_true, and_self, if_true, Arg.at]
    exact zipIdx_mapM_lists keys ofs ns 0 (by omega) (by omega) (fun k o n => wanted items permissive tr o n k)
  · intro a h1
    rw [C97_random_rows D f items h tr permissive keys hk, C97_random_rows D f items h tr permissive keys hk]
    simp [Arg.fits, h1]

/-- The same for the random access reader of a script file. -/
theorem C98_random_lists (D : Decoder) (tr : Nd → Nd) (fs : Files) (permissive : Bool) (es : List Entry) (r : RandScript)
    (h : ScpHolds D fs r.scp es) (hnd : r.scp.key.Nodup) (hca : r.scp.cache = none) (hr : RandOk fs r)
    (keys : List Str) (ofs ns : List Nat) (h1 : ofs.length = keys.length) (h2 : ns.length = keys.length) :
    (r.read D tr fs permissive keys (.list ofs) (.list ns)).map (·.1) =
      (keys.zip (ofs.zip ns)).mapM (fun (q : Str × Nat × Nat) => wantedEntry es permissive tr (some q.2.1) (some q.2.2) q.1) := by
  rw [(C98_random D tr fs permissive es r h hnd hca hr keys _ _).1]
  simp only [Arg.fits, h1, h2, decide_true, and_self, if_true, Arg.at]
  exact zipIdx_mapM_lists keys ofs ns 0 (by omega) (by omega) (fun k o n => wantedEntry es permissive tr o n k)

/-- Sequential reading with one row range per record: the `j`-th record of the call (not of the file) gets the `j`-th
offset and number of rows. -/
theorem C97_sequential_lists (D : Decoder) (f : File) (items : List (Str × Nd)) (h : Holds D f items) (tr : Nd → Nd) (cur k : Nat)
    (hc : cur ≤ items.length) (ofs ns : List Nat) (h1 : items.length ≤ ofs.length + cur ∨ 0 < k ∧ k ≤ ofs.length)
    (h2 : items.length ≤ ns.length + cur ∨ 0 < k ∧ k ≤ ns.length) :
    SeqFile.read D tr ⟨some f, items.map (·.1), cur⟩ k (.list ofs) (.list ns) =
      ((((items.take (advance items.length cur k)).drop cur).zip (ofs.zip ns)).mapM (fun (q : (Str × Nd) × Nat × Nat) =>
          (rowsOf? q.2.1 q.2.2 q.1.2).map (fun m => (q.1.1, tr m)))).map
            (fun xs => (xs, ⟨some f, items.map (·.1), advance items.length cur k⟩)) := by
  rw [C97_sequential_rows D f items h tr cur k hc]
  simp only [Arg.at]
  have hl : ((items.take (advance items.length cur k)).drop cur).length ≤ ofs.length ∧
      ((items.take (advance items.length cur k)).drop cur).length ≤ ns.length := by
    simp only [List.length_drop, List.length_take, advance]
    split <;> omega
  have := zipIdx_mapM_lists ((items.take (advance items.length cur k)).drop cur) ofs ns 0 (by omega) (by omega)
    (fun (it : Str × Nd) o n => (do
          let o ← o
          let n ← n
          let m ← rowsOf? o n it.2
          return (it.1, tr m) : Option (Str × Nd)))
  rw [List.drop_zero, List.drop_zero] at this
  rw [this]
  congr 2
  funext q
  simp only [Option.bind_eq_bind, Option.bind_some]
  rcases rowsOf? q.2.1 q.2.2 q.1.2 with _ | m <;> rfl

/-! ### shapes of a script -/

/-- the entry has the row range `[a, a+c)` (`c = 0`: to the end; no range: everything), and its array has these rows. -/
def Entry.HasRows (e : Entry) (a c : Nat) : Prop :=
  (e.range = none ∧ a = 0 ∧ c = 0 ∨ e.range = some (a, (c : Int))) ∧ a ≤ e.array.dim0 ∧ a + c ≤ e.array.dim0

theorem Entry.HasRows.rows {e : Entry} {a c : Nat} (h : e.HasRows a c) :
    e.rows id (some 0) (some 0) = some (rowsOf a c e.array) := by
  obtain ⟨hr, _, h2⟩ := h
  have hcomb : combineRanges e.range 0 0 = some (a, (c : Int)) := by
    rcases hr with ⟨h, rfl, rfl⟩ | h
    · simp [h, combineRanges]
    · simp [h, combineRanges]
  simp [Entry.rows, hcomb, natOf, rowsOf?, h2]

theorem seqScript_shapeLoop {D : Decoder} (fs : Files) {es : List Entry} (rg : Entry → Nat × Nat)
    (hrg : ∀ e ∈ es, e.HasRows (rg e).1 (rg e).2) (k : Nat) (r : SeqScript)
    (h : ScpHolds D fs r.scp es) (hop : OpenOk fs r.opened) (hc : r.cur ≤ es.length) :
    ∃ o, SeqScript.shapeLoop fs k r = some (((es.drop r.cur).take k).map
        (fun e => (e.key, ((rowsOf (rg e).1 (rg e).2 e.array).shape.map Int.ofNat))),
        ⟨r.scp, r.cur + min k (es.length - r.cur), o⟩) ∧ OpenOk fs o := by
  induction k generalizing r with
  | zero => exact ⟨r.opened, by simp [SeqScript.shapeLoop], hop⟩
  | succ k ih =>
    rw [SeqScript.shapeLoop]
    have hlen : r.scp.key.length = es.length := by simp [h.key]
    by_cases he : r.cur = es.length
    · have : r.eof = true := by simp [SeqScript.eof, hlen, he]
      rw [if_pos this, List.drop_of_length_le (by omega)]
      have hz : min (k + 1) (es.length - r.cur) = 0 := by omega
      exact ⟨r.opened, by simp [hz], hop⟩
    · have : r.eof = false := by simp [SeqScript.eof, hlen, he]
      have hlt : r.cur < es.length := by omega
      rw [this]
      simp only [Bool.false_eq_true, if_false]
      obtain ⟨off, hpos⟩ := h.pos r.cur hlt
      obtain ⟨f, d, hf, hd, _, hst⟩ := h.data _ (List.getElem_mem hlt)
      have hR := hrg _ (List.getElem_mem hlt)
      have hs := C98_shape es[r.cur] d D hst _ (rg es[r.cur]).1 (rg es[r.cur]).2 hR.1 hR.2.1 hR.rows
      obtain ⟨pr, hcr, hap⟩ := Option.bind_eq_some_iff.1 hs
      have hone : r.shapeOne fs = some ((es[r.cur].key, (rowsOf (rg es[r.cur]).1 (rg es[r.cur]).2 es[r.cur].array).shape.map Int.ofNat),
          ⟨r.scp, r.cur + 1, some (es[r.cur].path, f)⟩) := by
        simp only [SeqScript.shapeOne, hpos, Option.bind_eq_bind, Option.bind_some, hcr, openArchive_ok hop, hf, hd, hap]
        rfl
      have hop' : OpenOk fs (some (es[r.cur].path, f)) := by
        intro p g hpg
        obtain ⟨rfl, rfl⟩ := Prod.mk.inj (Option.some.inj hpg)
        exact hf
      obtain ⟨o, ho, ho'⟩ := ih ⟨r.scp, r.cur + 1, some (es[r.cur].path, f)⟩ h hop' hlt
      simp only at ho
      refine ⟨o, ?_, ho'⟩
      rw [hone, List.drop_eq_getElem_cons hlt, List.take_succ_cons]
      simp only [Option.bind_eq_bind, Option.bind_some, ho, Option.pure_def, List.map_cons]
      congr 3
      omega

/-- `read_shapes(k)` of a sequential script reader returns, for each of the next entries, the shape of the array that
`read(k)` would return for it, and moves like `read`. -/
theorem C98_read_shapes (D : Decoder) (fs : Files) (es : List Entry) (rg : Entry → Nat × Nat) (r : SeqScript)
    (hrg : ∀ e ∈ es, e.HasRows (rg e).1 (rg e).2) (h : ScpHolds D fs r.scp es) (hop : OpenOk fs r.opened)
    (hc : r.cur ≤ es.length) (k : Nat) :
    ∃ (ms : List (Str × Nd)) (r1 r2 : SeqScript), r.read D id fs k (.int 0) (.int 0) = some (ms, r1) ∧
      r.readShapes fs k false = some (ms.map (fun p => (p.1, p.2.shape.map Int.ofNat)), r2) ∧ r2.cur = r1.cur ∧
      ms = ((es.take (advance es.length r.cur k)).drop r.cur).map (fun e => (e.key, rowsOf (rg e).1 (rg e).2 e.array)) := by
  have hlen : r.scp.key.length = es.length := by simp [h.key]
  have hb : (es.drop r.cur).take (if k = 0 then es.length - r.cur else k) =
      (es.take (advance es.length r.cur k)).drop r.cur := by
    simp only [advance]
    by_cases hk : k = 0
    · subst hk
      simp only [if_true]
      rw [List.take_of_length_le (by simp), List.take_of_length_le (le_refl _)]
    · simp only [if_neg hk]
      rw [List.drop_take]
      by_cases hle : r.cur + k ≤ es.length
      · rw [Nat.min_eq_right hle, Nat.add_sub_cancel_left]
      · rw [Nat.min_eq_left (by omega), List.take_of_length_le (by simp; omega), List.take_of_length_le (by simp)]
  have hcur : r.cur + min (if k = 0 then es.length - r.cur else k) (es.length - r.cur) = advance es.length r.cur k := by
    unfold advance; split <;> omega
  obtain ⟨o, ho, _⟩ := seqScript_shapeLoop fs rg hrg (if k = 0 then es.length - r.cur else k) r h hop hc
  rw [hb, hcur] at ho
  have hread := (C98_sequential D id fs es r h hop hc k (.int 0) (.int 0)).1
  simp only [Arg.at] at hread
  rw [zipIdx_mapM_int _ 0 (fun e : Entry => (e.rows id (some 0) (some 0)).map (fun m => (e.key, m)))] at hread
  have hm : ((es.take (advance es.length r.cur k)).drop r.cur).mapM
      (fun e : Entry => (e.rows id (some 0) (some 0)).map (fun m => (e.key, m))) =
      some (((es.take (advance es.length r.cur k)).drop r.cur).map (fun e => (e.key, rowsOf (rg e).1 (rg e).2 e.array))) := by
    rw [mapM_eq_some_iff, List.map_map]
    refine List.map_congr_left (fun e he => ?_)
    have he' : e ∈ es := List.mem_of_mem_take (List.mem_of_mem_drop he)
    simp only [Function.comp, (hrg e he').rows, Option.map_some]
  rw [hm] at hread
  rcases hq : r.read D id fs k (.int 0) (.int 0) with _ | ⟨ms, r1⟩
  · rw [hq] at hread; simp at hread
  rw [hq] at hread
  simp only [Option.map_some, Option.some.injEq, Prod.mk.injEq] at hread
  refine ⟨ms, r1, ⟨r.scp, advance es.length r.cur k, o⟩, rfl, ?_, hread.2.2.symm, hread.1⟩
  rw [hread.1, List.map_map]
  unfold SeqScript.readShapes
  rw [hlen, ho]
  simp only [Option.bind_eq_bind, Option.bind_some, Bool.false_and, Bool.false_eq_true, if_false]
  rfl

/-- the elements of an array. -/
def elements : Nd → List Bytes
  | .vec _ els => els
  | .mat _ _ rows => rows.flatten

/-- The block that stands for a missing array has the shape of the first array, and all its bytes are zero. -/
theorem C99_zeros (m : Nd) : (Nd.zerosLike m).shape = m.shape ∧ ∀ e ∈ elements (Nd.zerosLike m), ∀ b ∈ e, b = 0 := by
  refine ⟨zerosLike_shape m, ?_⟩
  cases m with
  | vec dt els =>
    intro e he b hb
    obtain ⟨_, _, rfl⟩ := List.mem_map.1 he
    exact List.eq_of_mem_replicate hb
  | mat dt cols rows =>
    intro e he b hb
    obtain ⟨r, hr, he⟩ := List.mem_flatten.1 he
    obtain ⟨_, _, rfl⟩ := List.mem_map.1 hr
    rw [List.eq_of_mem_replicate he] at hb
    exact List.eq_of_mem_replicate hb

end Hyp.H5
