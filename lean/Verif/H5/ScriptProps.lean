import Verif.H5.Props

/-! C98 (script readers of HDF5 archives), C99 (`squeeze`), C100 (merging HDF5 files). -/

namespace Hyp.H5
open Hyp.Text Hyp.Kaldi Hyp.ListUtils

/-! ## C98 -/

/-- an entry of a script file and the array it refers to: key, path, range `[first, count)` (`count = 0`: to the
end), the whole array stored under the key in that file. -/
structure Entry where
  key : Str
  path : Str
  range : Option (Nat × Int)
  array : Nd

/-- the list has these entries, and every array is in its file. -/
structure ScpHolds (D : Decoder) (fs : Files) (scp : Scp.Scp Str Str) (es : List Entry) : Prop where
  key : scp.key = es.map (·.key)
  path : scp.path = es.map (·.path)
  pos : ∀ i (h : i < es.length), ∃ o, scp.getByPos i = some (es[i].key, es[i].path, o, es[i].range)
  data : ∀ e ∈ es, ∃ f d, fs e.path = some f ∧ f.get e.key = some d ∧ f.has e.key = true ∧ Stored D d e.array

/-- the rows an entry gives when rows `o..o+n` are asked (`n = 0`: all). -/
def Entry.rows (e : Entry) (tr : Nd → Nd) (o n : Option Nat) : Option Nd := do
  let o ← o
  let n ← n
  let (o, k) ← combineRanges e.range o n
  let k ← natOf k
  let m ← rowsOf? o k e.array
  return tr m

/-- an open handle has the contents of the file. -/
def OpenOk (fs : Files) (opened : Option (Str × File)) : Prop := ∀ p f, opened = some (p, f) → fs p = some f

theorem openArchive_ok {fs : Files} {opened : Option (Str × File)} (h : OpenOk fs opened) (path : Str) :
    openArchive fs opened path = fs path := by
  unfold openArchive
  cases opened with
  | none => rfl
  | some p =>
    obtain ⟨p, f⟩ := p
    simp only
    by_cases hp : path = p
    · subst hp; rw [if_neg (by simp)]; exact (h _ _ rfl).symm
    · rw [if_pos hp]

theorem seqScript_loop {D : Decoder} (tr : Nd → Nd) (fs : Files) (offs ns : Arg) {es : List Entry} (k i : Nat) (r : SeqScript)
    (h : ScpHolds D fs r.scp es) (hop : OpenOk fs r.opened) (hc : r.cur ≤ es.length) :
    (SeqScript.loop D tr fs offs ns k i r).map (fun p => (p.1, p.2.scp, p.2.cur)) =
      ((((es.drop r.cur).take k).zipIdx i).mapM (fun (p : Entry × Nat) => (p.1.rows tr (offs.at p.2) (ns.at p.2)).map (fun m => (p.1.key, m)))).map
        (fun xs => (xs, r.scp, r.cur + min k (es.length - r.cur))) ∧
    (∀ p, SeqScript.loop D tr fs offs ns k i r = some p → OpenOk fs p.2.opened) := by
  induction k generalizing i r with
  | zero =>
    refine ⟨by simp [SeqScript.loop], fun p hp => ?_⟩
    simp only [SeqScript.loop] at hp
    obtain rfl := Option.some.inj hp
    exact hop
  | succ k ih =>
    rw [SeqScript.loop]
    have hlen : r.scp.key.length = es.length := by simp [h.key]
    by_cases he : r.cur = es.length
    · have : r.eof = true := by simp [SeqScript.eof, hlen, he]
      rw [if_pos this, List.drop_of_length_le (by omega)]
      have hz : min (k + 1) (es.length - r.cur) = 0 := by omega
      refine ⟨by simp [hz], fun p hp => ?_⟩
      obtain rfl := Option.some.inj hp
      exact hop
    · have : r.eof = false := by simp [SeqScript.eof, hlen, he]
      have hlt : r.cur < es.length := by omega
      rw [this]
      simp only [Bool.false_eq_true, if_false]
      obtain ⟨off, hpos⟩ := h.pos r.cur hlt
      obtain ⟨f, d, hf, hd, _, hst⟩ := h.data _ (List.getElem_mem hlt)
      have hone : r.readOne D tr fs offs ns i =
          (es[r.cur].rows tr (offs.at i) (ns.at i)).map (fun m => ((es[r.cur].key, m),
            (⟨r.scp, r.cur + 1, some (es[r.cur].path, f)⟩ : SeqScript))) := by
        simp only [SeqScript.readOne, Entry.rows, hpos, Option.bind_eq_bind, Option.bind_some, openArchive_ok hop, hf, hd]
        rcases offs.at i with _ | o
        · rfl
        rcases ns.at i with _ | n
        · rfl
        simp only [Option.bind_some]
        rcases combineRanges es[r.cur].range o n with _ | ⟨o', k'⟩
        · rfl
        simp only [Option.bind_some]
        rcases natOf k' with _ | k'
        · rfl
        simp only [Option.bind_some, readSet_stored hst]
        rcases rowsOf? o' k' es[r.cur].array with _ | m <;> rfl
      rw [hone, List.drop_eq_getElem_cons hlt, List.take_succ_cons, List.zipIdx_cons, List.mapM_cons]
      simp only
      rcases es[r.cur].rows tr (offs.at i) (ns.at i) with _ | m
      · exact ⟨rfl, fun p hp => by simp at hp⟩
      simp only [Option.map_some, Option.bind_eq_bind, Option.bind_some]
      have hop' : OpenOk fs (some (es[r.cur].path, f)) := by
        intro p g hpg
        obtain ⟨rfl, rfl⟩ := Prod.mk.inj (Option.some.inj hpg)
        exact hf
      obtain ⟨h1, h2⟩ := ih (i + 1) ⟨r.scp, r.cur + 1, some (es[r.cur].path, f)⟩ h hop' hlt
      simp only at h1 h2
      constructor
      · generalize SeqScript.loop D tr fs offs ns k (i + 1) ⟨r.scp, r.cur + 1, some (es[r.cur].path, f)⟩ = q at h1 ⊢
        generalize (((es.drop (r.cur + 1)).take k).zipIdx (i + 1)).mapM (fun (p : Entry × Nat) =>
          (p.1.rows tr (offs.at p.2) (ns.at p.2)).map (fun m => (p.1.key, m))) = t at h1 ⊢
        cases q with
        | none =>
          cases t with
          | none => rfl
          | some t => simp at h1
        | some q =>
          cases t with
          | none => simp at h1
          | some t =>
            simp only [Option.map_some, Option.some.injEq, Prod.mk.injEq] at h1
            obtain ⟨e1, e2, e3⟩ := h1
            simp only [Option.bind_some, Option.pure_def, Option.map_some, Option.some.injEq, Prod.mk.injEq, e1, e2, e3, true_and]
            omega
      · intro p hp
        obtain ⟨q, hq, hp⟩ := Option.bind_eq_some_iff.1 hp
        obtain rfl := Option.some.inj hp
        exact h2 q hq

/-- Sequential reading of a script file: the call `read(k)` returns the rows asked for of the next `k` entries (all
that are left for `k = 0`), whatever file is open at that moment, and the reader moves after them; it raises exactly
when the rows of one of them cannot be read. -/
theorem C98_sequential (D : Decoder) (tr : Nd → Nd) (fs : Files) (es : List Entry) (r : SeqScript) (h : ScpHolds D fs r.scp es)
    (hop : OpenOk fs r.opened) (hc : r.cur ≤ es.length) (k : Nat) (offs ns : Arg) :
    (r.read D tr fs k offs ns).map (fun p => (p.1, p.2.scp, p.2.cur)) =
      (((((es.take (advance es.length r.cur k)).drop r.cur).zipIdx).mapM (fun (p : Entry × Nat) =>
        (p.1.rows tr (offs.at p.2) (ns.at p.2)).map (fun m => (p.1.key, m)))).map
          (fun xs => (xs, r.scp, advance es.length r.cur k))) ∧
    (∀ p, r.read D tr fs k offs ns = some p → OpenOk fs p.2.opened) := by
  have hlen : r.scp.key.length = es.length := by simp [h.key]
  have hb : (es.drop r.cur).take (if k = 0 then es.length - r.cur else k) =
      (es.take (advance es.length r.cur k)).drop r.cur := by
    simp only [advance]
    by_cases hk : k = 0
    · subst hk
      simp only [if_true]
      rw [List.take_of_length_le (by simp), List.take_of_length_le (le_refl _)]
    · simp only [if_neg hk]
      rw [List.drop_take]
      by_cases hle : r.cur + k ≤ es.length
      · rw [Nat.min_eq_right hle, Nat.add_sub_cancel_left]
      · rw [Nat.min_eq_left (by omega), List.take_of_length_le (by simp; omega), List.take_of_length_le (by simp)]
  have hcur : r.cur + min (if k = 0 then es.length - r.cur else k) (es.length - r.cur) = advance es.length r.cur k := by
    unfold advance; split <;> omega
  have := seqScript_loop tr fs offs ns (if k = 0 then es.length - r.cur else k) 0 r h hop hc
  rw [hb, hcur] at this
  unfold SeqScript.read
  rw [hlen]
  exact this

/-- `reset()` of a script reader, also after `close()`: the next read starts at the first entry again. -/
theorem C98_reset (r : SeqScript) : r.close.reset = r.reset ∧ r.reset.cur = 0 ∧ r.reset.scp = r.scp ∧
    (∀ fs, OpenOk fs r.reset.opened) ∧ (r.reset.eof = true ↔ r.scp.key = []) := by
  refine ⟨rfl, rfl, rfl, fun fs p f h => by simp [SeqScript.reset] at h, ?_⟩
  simp [SeqScript.reset, SeqScript.eof, eq_comm]

theorem rowsOf_rowsOf (o n a c : Nat) (v : Nd) (h : c = 0 ∨ (0 < n ∧ o + n ≤ c) ∨ (o = 0 ∧ n = 0)) :
    rowsOf o n (rowsOf a c v) = rowsOf (o + a) (if n = 0 then c else n) v := by
  have key : ∀ {α : Type} (l : List α),
      (if n = 0 then (if c = 0 then l.drop a else (l.drop a).take c).drop o
        else ((if c = 0 then l.drop a else (l.drop a).take c).drop o).take n) =
      (if (if n = 0 then c else n) = 0 then l.drop (o + a) else (l.drop (o + a)).take (if n = 0 then c else n)) := by
    intro α l
    by_cases hc : c = 0
    · by_cases hn : n = 0
      · simp [hc, hn, List.drop_drop, Nat.add_comm]
      · simp [hc, hn, List.drop_drop, Nat.add_comm]
    · by_cases hn : n = 0
      · have ho : o = 0 := by omega
        simp [hc, hn, ho]
      · have hle : o + n ≤ c := by omega
        simp only [hc, hn, if_false]
        rw [List.drop_take, List.take_take, List.drop_drop, Nat.add_comm a o]
        congr 1
        omega
  cases v with
  | vec dt els => simp only [rowsOf]; rw [key]
  | mat dt cols rows => simp only [rowsOf]; rw [key]

/-- The range of an entry: asking rows `o..o+n` of an entry with range `[a, a+c)` (`c = 0`: to the end) gives rows
`o..o+n` of the rows `a..a+c` of the array, when they are inside the entry; `n = 0, o = 0` gives the whole entry. -/
theorem C98_range (key path : Str) (a c o n : Nat) (v : Nd) (tr : Nd → Nd)
    (h : c = 0 ∨ (0 < n ∧ o + n ≤ c) ∨ (o = 0 ∧ n = 0)) (hfit : (if n = 0 then c else n) = 0 ∨ o + a + (if n = 0 then c else n) ≤ v.dim0) :
    (Entry.mk key path (some (a, (c : Int))) v).rows tr (some o) (some n) = some (tr (rowsOf o n (rowsOf a c v))) := by
  rw [rowsOf_rowsOf o n a c v h]
  have hcomb : combineRanges (some (a, (c : Int))) o n = some (o + a, ((if n = 0 then c else n : Nat) : Int)) := by
    unfold combineRanges
    by_cases hn : n = 0
    · simp [hn]
    · simp only [hn, if_false]
      by_cases hc : c = 0
      · simp [hc]
      · rw [if_pos (by omega), if_pos (by omega)]
  simp only [Entry.rows, hcomb, Option.bind_eq_bind, Option.bind_some, natOf, Int.natCast_nonneg, if_true, Int.toNat_natCast,
    rowsOf?, if_pos hfit, Option.pure_def]

/-- When the rows asked for are not inside the entry, the reader does not notice: rows after the end of the entry
are returned. -/
theorem C98_reads_outside_the_entry :
    ∃ (e : Entry) (o n : Nat), e.range = some (0, 2) ∧ e.array = .vec .f32 [[1], [2], [3], [4]] ∧
      e.rows id (some o) (some n) = some (.vec .f32 [[2], [3]]) ∧
      rowsOf? o n (rowsOf 0 2 e.array) = none := by
  refine ⟨⟨['k'], ['p'], some (0, 2), .vec .f32 [[1], [2], [3], [4]]⟩, 1, 2, rfl, rfl, by decide, by decide⟩

/-- `read_shapes` of a script: per entry the shape of the rows that `read` returns. -/
theorem C98_shape (e : Entry) (d : DSet) (D : Decoder) (hst : Stored D d e.array) (m : Nd) (a c : Nat)
    (hr : e.range = none ∧ a = 0 ∧ c = 0 ∨ e.range = some (a, (c : Int))) (ha : a ≤ e.array.dim0)
    (hm : e.rows id (some 0) (some 0) = some m) :
    ((combineRanges e.range 0 0).bind (fun p => applyRangeToShape d.ishape p.1 p.2)) = some (m.shape.map Int.ofNat) := by
  have hcomb : combineRanges e.range 0 0 = some (a, (c : Int)) := by
    rcases hr with ⟨h, rfl, rfl⟩ | h
    · simp [h, combineRanges]
    · simp [h, combineRanges]
  simp only [Entry.rows, hcomb, Option.bind_eq_bind, Option.bind_some, natOf, Int.natCast_nonneg, if_true, Int.toNat_natCast] at hm ⊢
  obtain ⟨m', hm', hm⟩ := Option.bind_eq_some_iff.1 hm
  obtain rfl := Option.some.inj hm
  unfold rowsOf? at hm'
  split at hm'
  · rename_i hfit
    obtain rfl := Option.some.inj hm'
    simp only [id, DSet.ishape, shape_stored hst]
    cases hv : e.array with
    | vec dt els =>
      rw [hv] at hfit ha
      simp only [Nd.dim0] at hfit ha
      simp only [rowsOf, Nd.shape, List.map_cons, List.map_nil, applyRangeToShape, Int.ofNat_eq_natCast]
      by_cases hc : c = 0
      · subst hc
        by_cases ha0 : a = 0
        · subst ha0; simp
        · rw [if_pos (by omega)]
          simp only [Int.natCast_zero, lt_irrefl, if_false, if_true, List.length_drop]
          congr 2
          omega
      · rw [if_pos (by omega), if_pos (by omega), if_pos (by omega)]
        simp only [hc, if_false, List.length_take, List.length_drop]
        congr 2
        omega
    | mat dt cols rows =>
      rw [hv] at hfit ha
      simp only [Nd.dim0] at hfit ha
      simp only [rowsOf, Nd.shape, List.map_cons, List.map_nil, applyRangeToShape, Int.ofNat_eq_natCast]
      by_cases hc : c = 0
      · subst hc
        by_cases ha0 : a = 0
        · subst ha0; simp
        · rw [if_pos (by omega)]
          simp only [Int.natCast_zero, lt_irrefl, if_false, if_true, List.length_drop]
          congr 2
          omega
      · rw [if_pos (by omega), if_pos (by omega), if_pos (by omega)]
        simp only [hc, if_false, List.length_take, List.length_drop]
        congr 2
        omega
  · simp at hm'

/-! ### random access -/

/-- the handles that are open have the contents of their files. -/
structure RandOk (fs : Files) (r : RandScript) : Prop where
  arch : r.archives = npUnique r.scp.path
  idx : r.archiveIdx = npInverse r.scp.path
  len : r.handles.length = r.archives.length
  ok : ∀ (a : Nat) (f : File), r.handles[a]? = some (some f) → ∃ p, r.archives[a]? = some p ∧ fs p = some f

theorem C98_rand_open (fs : Files) (scp : Scp.Scp Str Str) : RandOk fs (RandScript.open scp none) := by
  refine ⟨rfl, rfl, by simp [RandScript.open], ?_⟩
  intro a f h
  simp only [RandScript.open, List.getElem?_map] at h
  obtain ⟨x, _, h⟩ := Option.map_eq_some_iff.1 h
  simp at h

theorem RandOk.close {fs : Files} {r : RandScript} (h : RandOk fs r) : RandOk fs r.close := by
  refine ⟨h.arch, h.idx, by simp [RandScript.close, h.len], ?_⟩
  intro a f hh
  simp only [RandScript.close, List.getElem?_map] at hh
  obtain ⟨x, _, hh⟩ := Option.map_eq_some_iff.1 hh
  simp at hh

theorem npInverse_get {α : Type} [LinearOrder α] {l : List α} {i : Nat} {p : α} (h : l[i]? = some p) :
    ∃ a, (npInverse l)[i]? = some a ∧ (npUnique l)[a]? = some p := by
  unfold npInverse
  rw [List.getElem?_map, h]
  refine ⟨_, rfl, ?_⟩
  have hm : p ∈ npUnique l := mem_npUnique.2 (List.mem_of_getElem? h)
  show (npUnique l)[_]? = some p
  dsimp only
  rw [List.getElem?_eq_getElem (by rw [List.idxOf_lt_length_iff]; exact hm)]
  simp only [List.getElem_idxOf]

theorem RandOk.openArchive {fs : Files} {r : RandScript} (h : RandOk fs r) {i : Nat} {p : Str} {f : File}
    (hp : r.scp.path[i]? = some p) (hf : fs p = some f) :
    ∃ r', r.openArchive fs i = some (f, r') ∧ RandOk fs r' ∧ r'.scp = r.scp := by
  obtain ⟨a, ha, hu⟩ := npInverse_get hp
  rw [← h.idx] at ha
  rw [← h.arch] at hu
  obtain ⟨hal, _⟩ := List.getElem?_eq_some_iff.1 hu
  have hh : ∃ x, r.handles[a]? = some x := ⟨_, List.getElem?_eq_getElem (by rw [h.len]; exact hal)⟩
  obtain ⟨x, hx⟩ := hh
  unfold RandScript.openArchive
  simp only [ha, hx, Option.bind_eq_bind, Option.bind_some]
  cases x with
  | some g =>
    obtain ⟨p', h1, h2⟩ := h.ok a g hx
    rw [hu] at h1
    obtain rfl := Option.some.inj h1
    rw [hf] at h2
    obtain rfl := Option.some.inj h2
    exact ⟨r, rfl, h, rfl⟩
  | none =>
    simp only [hu, hf, Option.bind_some]
    refine ⟨_, rfl, ⟨h.arch, h.idx, by simp [h.len], ?_⟩, rfl⟩
    intro b g hb
    simp only at hb ⊢
    by_cases hab : a = b
    · subst hab
      rw [List.getElem?_set_self (by rw [h.len]; exact hal)] at hb
      have := Option.some.inj (Option.some.inj hb)
      exact ⟨p, hu, this ▸ hf⟩
    · rw [List.getElem?_set_ne hab] at hb
      exact h.ok b g hb

/-- what random access through a script file should return for one key. -/
def wantedEntry (es : List Entry) (permissive : Bool) (tr : Nd → Nd) (o n : Option Nat) (k : Str) : Option Nd :=
  match es.find? (fun e => decide (e.key = k)) with
  | some e => e.rows tr o n
  | none => if permissive then some (.vec .f32 []) else none

theorem enum_lookup {es : List Entry} {scp : Scp.Scp Str Str} (hk : scp.key = es.map (·.key)) (hnd : scp.key.Nodup)
    (hca : scp.cache = none) (k : Str) :
    (es.find? (fun e => decide (e.key = k)) = none ∧ (scp.contains k).1 = false) ∨
    ∃ i, ∃ h : i < es.length, es.find? (fun e => decide (e.key = k)) = some es[i] ∧ es[i].key = k ∧
      (scp.contains k).1 = true ∧ (scp.getIndex k).1 = some i := by
  unfold Scp.Scp.contains Scp.Scp.getIndex
  rw [hca]
  simp only
  rcases hf : es.find? (fun e => decide (e.key = k)) with _ | e
  · left
    refine ⟨hf, ?_⟩
    have hn : k ∉ scp.key := by
      rw [hk]
      intro hm
      obtain ⟨e, he, hek⟩ := List.mem_map.1 hm
      have := List.find?_eq_none.1 hf e he
      simp [hek] at this
    rw [enumDict_get_not_mem hn]
    rfl
  · right
    have hmem := List.mem_of_find?_eq_some hf
    have hek : e.key = k := by simpa using List.find?_some hf
    obtain ⟨i, hi, rfl⟩ := List.mem_iff_getElem.1 hmem
    have hki : scp.key[i]? = some k := by simp [hk, hi, hek]
    have := enumDict_get_nodup hnd hki
    exact ⟨i, hi, hf, hek, by rw [this]; rfl, this⟩

theorem rand_loop {D : Decoder} (tr : Nd → Nd) (fs : Files) (permissive : Bool) (offs ns : Arg) {es : List Entry} (keys : List Str) (i : Nat)
    (r : RandScript) (h : ScpHolds D fs r.scp es) (hnd : r.scp.key.Nodup) (hca : r.scp.cache = none) (hr : RandOk fs r) :
    (RandScript.loop D tr fs permissive offs ns i keys r).map (·.1) =
      (keys.zipIdx i).mapM (fun p => wantedEntry es permissive tr (offs.at p.2) (ns.at p.2) p.1) ∧
    ∀ p, RandScript.loop D tr fs permissive offs ns i keys r = some p → RandOk fs p.2 ∧ p.2.scp = r.scp := by
  induction keys generalizing i r with
  | nil =>
    refine ⟨rfl, fun p hp => ?_⟩
    simp only [RandScript.loop] at hp
    obtain rfl := Option.some.inj hp
    exact ⟨hr, rfl⟩
  | cons k keys ih =>
    have hone : ∃ r', RandOk fs r' ∧ r'.scp = r.scp ∧ r.readOne D tr fs permissive offs ns i k =
        (wantedEntry es permissive tr (offs.at i) (ns.at i) k).map (fun m => (m, r')) := by
      unfold RandScript.readOne wantedEntry
      rcases enum_lookup h.key hnd hca k with ⟨h1, h2⟩ | ⟨j, hj, h1, hkj, h2, h3⟩
      · refine ⟨r, hr, rfl, ?_⟩
        rw [h1, h2]
        cases permissive <;> simp [emptyNd]
      · obtain ⟨off, hpos⟩ := h.pos j hj
        obtain ⟨f, d, hf, hd, hh, hst⟩ := h.data _ (List.getElem_mem hj)
        rw [hkj] at hd hh
        have hpj : r.scp.path[j]? = some es[j].path := by simp [h.path, hj]
        obtain ⟨r', ho, hok, hsc⟩ := hr.openArchive hpj hf
        refine ⟨r', hok, hsc, ?_⟩
        rw [h1, h2, h3]
        simp only [if_true, Option.bind_eq_bind, Option.bind_some, hpos, Entry.rows]
        rcases offs.at i with _ | o
        · rfl
        rcases ns.at i with _ | n
        · rfl
        simp only [Option.bind_some]
        rcases combineRanges es[j].range o n with _ | ⟨o', k'⟩
        · rfl
        simp only [Option.bind_some, ho, hh, if_true, hd]
        rcases natOf k' with _ | k'
        · rfl
        simp only [Option.bind_some, readSet_stored hst]
        rcases rowsOf? o' k' es[j].array with _ | m <;> rfl
    obtain ⟨r', hok, hsc, hone⟩ := hone
    rw [RandScript.loop, hone, List.zipIdx_cons, List.mapM_cons]
    simp only
    rcases wantedEntry es permissive tr (offs.at i) (ns.at i) k with _ | m
    · exact ⟨rfl, fun p hp => by simp at hp⟩
    simp only [Option.map_some, Option.bind_eq_bind, Option.bind_some]
    obtain ⟨h1, h2⟩ := ih (i + 1) r' (hsc ▸ h) (hsc ▸ hnd) (hsc ▸ hca) hok
    rw [← h1]
    constructor
    · rcases RandScript.loop D tr fs permissive offs ns (i + 1) keys r' with _ | q <;> rfl
    · intro p hp
      obtain ⟨q, hq, hp⟩ := Option.bind_eq_some_iff.1 hp
      obtain rfl := Option.some.inj hp
      obtain ⟨g1, g2⟩ := h2 q hq
      exact ⟨g1, g2.trans hsc⟩

/-- Random access through a script file with distinct keys: for each key, in order, the rows asked for of its entry
(an empty vector for an unknown key if `permissive`, else an exception). The result does not depend on the files
that earlier calls have opened or on an earlier `close()`. -/
theorem C98_random (D : Decoder) (tr : Nd → Nd) (fs : Files) (permissive : Bool) (es : List Entry) (r : RandScript)
    (h : ScpHolds D fs r.scp es) (hnd : r.scp.key.Nodup) (hca : r.scp.cache = none) (hr : RandOk fs r)
    (keys : List Str) (offs ns : Arg) :
    (r.read D tr fs permissive keys offs ns).map (·.1) =
      (if offs.fits keys.length = true ∧ ns.fits keys.length = true then
        keys.zipIdx.mapM (fun p => wantedEntry es permissive tr (offs.at p.2) (ns.at p.2) p.1)
      else none) ∧
    ∀ p, r.read D tr fs permissive keys offs ns = some p → RandOk fs p.2 ∧ p.2.scp = r.scp := by
  unfold RandScript.read
  simp only [Bool.and_eq_true]
  split
  · exact rand_loop tr fs permissive offs ns keys 0 r h hnd hca hr
  · exact ⟨rfl, fun p hp => by simp at hp⟩

theorem find_self {es : List Entry} (hnd : (es.map (·.key)).Nodup) (e : Entry) (he : e ∈ es) :
    es.find? (fun x => decide (x.key = e.key)) = some e := by
  induction es with
  | nil => simp at he
  | cons a l ih =>
    simp only [List.map_cons, List.nodup_cons] at hnd
    rcases List.mem_cons.1 he with rfl | hm
    · simp
    · have hne : a.key ≠ e.key := fun h => hnd.1 (h ▸ List.mem_map_of_mem hm)
      rw [List.find?_cons_of_neg (by simpa using hne)]
      exact ih hnd.2 hm

/-- Random and sequential access agree: asking a random access reader for all the keys of a script file, in the
order of the file, gives the arrays that the sequential reader returns. -/
theorem C98_random_is_sequential (D : Decoder) (tr : Nd → Nd) (fs : Files) (permissive : Bool) (es : List Entry) (scp : Scp.Scp Str Str)
    (h : ScpHolds D fs scp es) (hnd : scp.key.Nodup) (hca : scp.cache = none) (off n : Nat) :
    ((RandScript.open scp none).read D tr fs permissive scp.key (.int off) (.int n)).map (·.1) =
      ((SeqScript.mk scp 0 none).read D tr fs 0 (.int off) (.int n)).map (fun p => p.1.map (·.2)) := by
  rw [(C98_random D tr fs permissive es (RandScript.open scp none) h hnd hca (C98_rand_open fs scp) scp.key _ _).1]
  have hs := (C98_sequential D tr fs es (SeqScript.mk scp 0 none) h (by intro p f hh; simp at hh) (by simp) 0 (.int off) (.int n)).1
  have hs' := congrArg (Option.map (fun q : List (Str × Nd) × Scp.Scp Str Str × Nat => q.1.map (·.2))) hs
  rw [Option.map_map, Option.map_map] at hs'
  have e1 : ((fun q : List (Str × Nd) × Scp.Scp Str Str × Nat => q.1.map (·.2)) ∘
      (fun p : List (Str × Nd) × SeqScript => (p.1, p.2.scp, p.2.cur))) = fun p => p.1.map (·.2) := rfl
  rw [e1] at hs'
  rw [hs']
  simp only [Arg.fits, and_self, if_true, Arg.at, advance, List.take_of_length_le (le_refl _), List.drop_zero]
  have z1 := zipIdx_mapM_int scp.key 0 (wantedEntry es permissive tr (some off) (some n))
  have z2 := zipIdx_mapM_int es 0 (fun e : Entry => (e.rows tr (some off) (some n)).map (fun m => (e.key, m)))
  rw [z1, z2, h.key]
  have hnd' : (es.map (·.key)).Nodup := h.key ▸ hnd
  have key : ∀ l : List Entry, (∀ e ∈ l, e ∈ es) →
      (l.map (·.key)).mapM (wantedEntry es permissive tr (some off) (some n)) =
      (l.mapM (fun e : Entry => (e.rows tr (some off) (some n)).map (fun m => (e.key, m)))).map (fun xs => xs.map (·.2)) := by
    intro l
    induction l with
    | nil => intro _; rfl
    | cons e l ih =>
      intro hl
      rw [List.map_cons, List.mapM_cons, List.mapM_cons, ih (fun x hx => hl x (by simp [hx]))]
      have : wantedEntry es permissive tr (some off) (some n) e.key = e.rows tr (some off) (some n) := by
        unfold wantedEntry
        rw [find_self hnd' e (hl e (by simp))]
      rw [this]
      rcases e.rows tr (some off) (some n) with _ | m
      · rfl
      · simp only [Option.map_some, Option.bind_eq_bind, Option.bind_some]
        rcases l.mapM (fun e : Entry => (e.rows tr (some off) (some n)).map (fun m => (e.key, m))) with _ | xs <;> rfl
  rw [key es (fun e he => he)]
  rfl

end Hyp.H5
