import Verif.H5.ScriptProps
import Verif.Kaldi.BatchProps

/-! C98 (the script file of the writer), C99 (`squeeze`), C100 (merging HDF5 files). -/

namespace Hyp.H5
open Hyp.Text Hyp.Kaldi Hyp.ListUtils

/-! ## C98: from the writer to the script readers -/

theorem script_is_save (sep : Char) (path : Str) (items : List (Str × KMat × Nd)) :
    items.flatMap (fun it => scriptLine sep path it.1) =
      (Scp.Scp.mk (items.map (·.1)) (items.map (fun _ => path)) none none none).save sep ':' := by
  simp only [Scp.Scp.save, Scp.rangeTexts]
  induction items with
  | nil => simp
  | cons it items ih =>
    simp only [List.flatMap_cons, List.map_cons]
    rw [ih]
    simp [scriptLine]

theorem getByPos_none {x : Scp.Scp Str Str} {keys paths : List Str} (h1 : x.key = keys)
    (h2 : x.path = paths) (h3 : x.offset = none) (h4 : x.range = none) {i : Nat} {k p : Str}
    (hk : keys[i]? = some k) (hp : paths[i]? = some p) :
    x.getByPos i = some (k, p, none, none) := by
  unfold Scp.Scp.getByPos
  simp only [h1, h2, h3, h4, Scp.optCol, hk, hp, Option.bind_eq_bind, Option.bind_some]
  rfl

/-- Writing an archive with a script file: the script file can be loaded, and the readers that use it find every
array - in the order in which they were written, not in the order of the keys. -/
theorem C98_written_script (D : Decoder) (sep : Char) (path : Str) (hp : PathOk sep path) (items : List (Str × KMat × Nd))
    (hne : items ≠ []) (hk : ∀ it ∈ items, PlainKey it.1) (hsep : ∀ it ∈ items, sep ∉ it.1)
    (hnd : (items.map (·.1)).Nodup) (hv : ∀ it ∈ items, Given D it.2.1 it.2.2) :
    ∃ (w : Writer) (scp : Scp.Scp Str Str), (Writer.new true).write sep path (items.map (fun it => (it.1, it.2.1))) = some w ∧
      Scp.load sep ':' w.script = some scp ∧ scp.key = items.map (·.1) ∧
      ∀ (fs : Files), fs path = some w.file →
        ScpHolds D fs scp (items.map (fun it => ⟨it.1, path, none, it.2.2⟩)) := by
  obtain ⟨w, new, h1, h2, h3, _, h5⟩ := write_flat sep path items (Writer.new true) [] rfl hk (by simpa using hnd) hv
  have hkeys : new.map (·.1) = items.map (·.1) := keys_of h5
  have hscr : w.script = (Scp.Scp.mk (items.map (·.1)) (items.map (fun _ => path)) none none none).save sep ':' := by
    rw [h3, ← script_is_save]; rfl
  have hwf : (Scp.Scp.mk (items.map (·.1)) (items.map (fun _ => path)) none none none).WF :=
    ⟨by simp, by simp, by simp⟩
  have hsav : Scp.Savable sep ':' (Scp.Scp.mk (items.map (·.1)) (items.map (fun _ => path)) none none none) := by
    refine ⟨?_, ?_, by simp, ⟨hp.sep.1, hp.sep.2, by decide, by decide, by decide⟩⟩
    · intro k hkm
      obtain ⟨it, hit, rfl⟩ := List.mem_map.1 hkm
      obtain ⟨_, _, h3, _⟩ := isToken_writeToken (hk it hit).token
      refine ⟨hsep it hit, fun hc => ?_, fun hc => ?_⟩
      · have := h3 _ hc; revert this; decide
      · have := h3 _ hc; revert this; decide
    · intro p hpm
      obtain ⟨it, hit, rfl⟩ := List.mem_map.1 hpm
      exact hp.path
  obtain ⟨x, hx, hxk, hxp, hxo, hxr⟩ := Scp.C04_scp_round_trip sep ':' _ hwf (by simpa using hne) hsav
  rw [← hscr] at hx
  have hxr' : x.range = none := by rw [hxr]; simp
  refine ⟨w, x, h1, hx, hxk, fun fs hfs => ⟨by rw [hxk, List.map_map]; rfl, by rw [hxp, List.map_map]; rfl, ?_, ?_⟩⟩
  · intro i hi
    rw [List.length_map] at hi
    refine ⟨none, ?_⟩
    rw [getByPos_none (x := x) hxk hxp hxo hxr' (i := i) (k := items[i].1) (p := path) (by simp [hi]) (by simp [hi])]
    simp
  · intro e he
    obtain ⟨it, hit, rfl⟩ := List.mem_map.1 he
    simp only [List.nil_append] at h2
    obtain ⟨i, hi, rfl⟩ := List.mem_iff_getElem.1 hit
    have hl := h5.length_eq
    have hh := (List.forall₂_iff_get.1 h5).2 i (by omega) hi
    simp only [List.get_eq_getElem] at hh
    have hm : new[i]'(by omega) ∈ new := List.getElem_mem _
    have hpk := hk _ hit
    refine ⟨w.file, (new[i]'(by omega)).2, hfs, ?_, ?_, hh.2⟩
    · rw [h2.get hpk, ← hh.1, lookup_of_mem (hkeys ▸ hnd) hm]
    · rw [h2.has hpk, hkeys]
      exact List.mem_map_of_mem hit

/-- The same, read to the end: `read()` of the sequential script reader returns the keys and arrays in the order of
writing; asking the random access reader for any of the keys in any order returns their arrays. -/
theorem C98_write_read (D : Decoder) (sep : Char) (path : Str) (hp : PathOk sep path) (items : List (Str × KMat × Nd))
    (hne : items ≠ []) (hk : ∀ it ∈ items, PlainKey it.1) (hsep : ∀ it ∈ items, sep ∉ it.1)
    (hnd : (items.map (·.1)).Nodup) (hv : ∀ it ∈ items, Given D it.2.1 it.2.2) :
    ∃ (w : Writer) (scp : Scp.Scp Str Str), (Writer.new true).write sep path (items.map (fun it => (it.1, it.2.1))) = some w ∧
      Scp.load sep ':' w.script = some scp ∧
      ∀ (fs : Files) (tr : Nd → Nd), fs path = some w.file →
        ∃ r, SeqScript.open scp 1 1 false none = some r ∧
          (r.read D tr fs 0 (.int 0) (.int 0)).map (·.1) = some (items.map (fun it => (it.1, tr it.2.2))) ∧
          ∀ (want : List (Str × KMat × Nd)), (∀ it ∈ want, it ∈ items) →
            ((RandScript.open scp none).read D tr fs false (want.map (·.1)) (.int 0) (.int 0)).map (·.1) =
              some (want.map (fun it => tr it.2.2)) := by
  obtain ⟨w, scp, h1, h2, hkey, h3⟩ := C98_written_script D sep path hp items hne hk hsep hnd hv
  have hca : scp.cache = none := by
    have := h2
    unfold Scp.load at this
    obtain ⟨a, _, this⟩ := Option.bind_eq_some_iff.1 this
    first
      | exact create_cache this
      | (obtain ⟨b, _, this⟩ := Option.bind_eq_some_iff.1 this; exact create_cache this)
  refine ⟨w, scp, h1, h2, fun fs tr hfs => ?_⟩
  have H := h3 fs hfs
  have hrow : ∀ it : Str × KMat × Nd, (Entry.mk it.1 path none it.2.2).rows tr (some 0) (some 0) = some (tr it.2.2) := by
    intro it
    simp [Entry.rows, combineRanges, natOf, rowsOf?_zero]
  refine ⟨⟨scp, 0, none⟩, by simp [SeqScript.open], ?_, ?_⟩
  · have hs := (C98_sequential D tr fs _ (SeqScript.mk scp 0 none) H (by intro p f hh; simp at hh) (by simp) 0 (.int 0) (.int 0)).1
    have hs' := congrArg (Option.map (fun q : List (Str × Nd) × Scp.Scp Str Str × Nat => q.1)) hs
    rw [Option.map_map, Option.map_map] at hs'
    have e1 : ((fun q : List (Str × Nd) × Scp.Scp Str Str × Nat => q.1) ∘
      (fun p : List (Str × Nd) × SeqScript => (p.1, p.2.scp, p.2.cur))) = fun p => p.1 := rfl
    rw [e1] at hs'
    rw [hs']
    simp only [Arg.at, advance, if_true, List.take_of_length_le (le_refl _), List.drop_zero]
    rw [zipIdx_mapM_int _ 0 (fun e : Entry => (e.rows tr (some 0) (some 0)).map (fun m => (e.key, m)))]
    have : (items.map (fun it => Entry.mk it.1 path none it.2.2)).mapM
        (fun e : Entry => (e.rows tr (some 0) (some 0)).map (fun m => (e.key, m))) =
        some (items.map (fun it => (it.1, tr it.2.2))) := by
      rw [mapM_eq_some_iff, List.map_map, List.map_map]
      refine List.map_congr_left (fun it _ => ?_)
      simp only [Function.comp, hrow, Option.map_some]
    rw [this]
    rfl
  · intro want hw
    rw [(C98_random D tr fs false _ (RandScript.open scp none) H (hkey ▸ hnd) hca (C98_rand_open fs scp) _ _ _).1]
    simp only [Arg.fits, and_self, if_true, Arg.at]
    rw [zipIdx_mapM_int _ 0 (wantedEntry _ false tr (some 0) (some 0)), mapM_eq_some_iff, List.map_map, List.map_map]
    refine List.map_congr_left (fun it hit => ?_)
    simp only [Function.comp]
    unfold wantedEntry
    have hnd' : ((items.map (fun it => Entry.mk it.1 path none it.2.2)).map (·.key)).Nodup := by
      simpa [List.map_map, Function.comp_def] using hnd
    have hf := find_self hnd' (Entry.mk it.1 path none it.2.2) (List.mem_map_of_mem (hw it hit))
    simp only at hf
    rw [hf]
    exact hrow it

/-- `read_shapes` of a script reader that has no entries left raises when the shapes are compared. -/
theorem C98_shapes_at_the_end (fs : Files) (r : SeqScript) (h : r.eof = true) (k : Nat) :
    r.readShapes fs k true = none ∧ (r.readShapes fs k false).map (·.1) = some [] := by
  have : ∀ j, SeqScript.shapeLoop fs j r = some ([], r) := by
    intro j
    cases j with
    | zero => rfl
    | succ j => simp [SeqScript.shapeLoop, h]
  simp [SeqScript.readShapes, this, sameDim]

/-! ## C99 -/

theorem squeezeOne_same (p : Bool) {first m : Nd} (h : m.shape = first.shape) (h0 : m.dim0 ≠ 0) :
    squeezeOne p first m = some (some m) := by
  unfold squeezeOne
  rw [if_neg h0, if_pos (by rw [h]; exact ⟨rfl, rfl⟩)]

/-- what stands in the stacked array for a requested array: itself, zeros when it is missing. -/
def orZeros (first m : Nd) : Nd := if m.dim0 = 0 then Nd.zerosLike first else m

theorem zerosLike_shape (m : Nd) : (Nd.zerosLike m).shape = m.shape := by
  cases m <;> simp [Nd.zerosLike, Nd.shape]

/-- `squeeze=True` when all the arrays have one shape and rows: they become the blocks of one array, in order. -/
theorem C99_same_shape (permissive : Bool) (data : List Nd) (hne : data ≠ []) (s : List Nat)
    (hs : ∀ m ∈ data, m.shape = s ∧ m.dim0 ≠ 0) : squeeze permissive data = some (.stack data) := by
  obtain ⟨a, l, rfl⟩ := List.exists_cons_of_ne_nil hne
  have hm : (a :: l).mapM (squeezeOne permissive a) = some ((a :: l).map some) := by
    rw [mapM_eq_some_iff, List.map_map]
    refine List.map_congr_left (fun m hm => ?_)
    exact squeezeOne_same _ (((hs m hm).1).trans (hs a (by simp)).1.symm) (hs m hm).2
  unfold squeeze
  simp only [List.head?_cons, Option.bind_eq_bind, Option.bind_some, hm]
  rw [if_pos (by simp)]
  have hf : ((a :: l).map some).filterMap id = a :: l := by simp [List.filterMap_map]
  rw [hf, if_pos]
  rw [List.all_eq_true]
  intro b hb
  rw [List.all_eq_true]
  intro c hc
  simp [(hs b hb).1, (hs c hc).1]

/-- `squeeze=True` of a permissive reader when the first key exists: missing keys become blocks of zeros of the
shape of the first array. -/
theorem C99_permissive (data : List Nd) (first : Nd) (rest : List Nd) (hd : data = first :: rest) (h0 : first.dim0 ≠ 0)
    (hs : ∀ m ∈ rest, m.dim0 = 0 ∨ m.shape = first.shape) :
    squeeze true data = some (.stack (data.map (orZeros first))) := by
  subst hd
  have hs' : ∀ m ∈ first :: rest, m.dim0 = 0 ∨ m.shape = first.shape := by
    intro m hm
    rcases List.mem_cons.1 hm with rfl | h
    · exact Or.inr rfl
    · exact hs m h
  have hm : (first :: rest).mapM (squeezeOne true first) = some ((first :: rest).map (fun m => some (orZeros first m))) := by
    rw [mapM_eq_some_iff, List.map_map]
    refine List.map_congr_left (fun m hm => ?_)
    simp only [Function.comp, orZeros]
    by_cases hz : m.dim0 = 0
    · simp [squeezeOne, hz]
    · rw [if_neg hz, squeezeOne_same _ ((hs' m hm).resolve_left hz) hz]
  unfold squeeze
  simp only [List.head?_cons, Option.bind_eq_bind, Option.bind_some, hm]
  rw [if_pos (by simp)]
  have hf : ((first :: rest).map (fun m => some (orZeros first m))).filterMap id = (first :: rest).map (orZeros first) := by
    rw [List.filterMap_map]
    have : (id ∘ fun m => some (orZeros first m)) = fun m => some (orZeros first m) := rfl
    rw [this, List.filterMap_eq_map']
  rw [hf, if_pos]
  have hsh : ∀ b ∈ (first :: rest).map (orZeros first), b.shape = first.shape := by
    intro b hb
    obtain ⟨m, hm, rfl⟩ := List.mem_map.1 hb
    unfold orZeros
    by_cases hz : m.dim0 = 0
    · rw [if_pos hz, zerosLike_shape]
    · rw [if_neg hz]; exact (hs' m hm).resolve_left hz
  rw [List.all_eq_true]
  intro b hb
  rw [List.all_eq_true]
  intro c hc
  simp [hsh b hb, hsh c hc]

/-- When the first requested key is missing the call raises as soon as one of the others exists: the shape of the
zeros is taken from the first result. -/
theorem C99_first_missing (permissive : Bool) (rest : List Nd) (m : Nd) (hm : m ∈ rest) (h0 : m.dim0 ≠ 0) :
    squeeze permissive (emptyNd :: rest) = none := by
  unfold squeeze
  simp only [List.head?_cons, Option.bind_eq_bind, Option.bind_some]
  have : (emptyNd :: rest).mapM (squeezeOne permissive emptyNd) = none := by
    rw [mapM_eq_none_iff]
    refine ⟨m, by simp [hm], ?_⟩
    unfold squeezeOne
    rw [if_neg h0, if_neg]
    rintro ⟨h1, h2⟩
    cases m with
    | vec dt els =>
      simp only [Nd.shape, emptyNd, List.getLast?_singleton, List.length_nil, Option.some.injEq] at h2
      exact h0 (by simpa [Nd.dim0] using h2)
    | mat dt cols rows => simp [Nd.shape, emptyNd] at h1
  rw [this]
  rfl

/-- Without `permissive` an array without rows among others that have rows raises; nothing at all to squeeze raises;
two arrays with rows and different shapes raise. -/
theorem C99_raises (permissive : Bool) (data : List Nd) :
    squeeze permissive [] = none ∧
    (permissive = false → (∃ a ∈ data, a.dim0 = 0) → (∃ b ∈ data, b.dim0 ≠ 0) → squeeze permissive data = none) ∧
    (∀ a ∈ data, ∀ b ∈ data, a.dim0 ≠ 0 → b.dim0 ≠ 0 → a.shape ≠ b.shape → squeeze permissive data = none) := by
  refine ⟨rfl, ?_, ?_⟩
  · rintro rfl ⟨a, ha, ha0⟩ ⟨b, hb, hb0⟩
    unfold squeeze
    rcases data with _ | ⟨first, rest⟩
    · simp at ha
    simp only [List.head?_cons, Option.bind_eq_bind, Option.bind_some]
    rcases hbs : (first :: rest).mapM (squeezeOne false first) with _ | bs
    · rfl
    simp only [Option.bind_some]
    rw [mapM_eq_some_iff] at hbs
    have h1 : none ∈ bs := by
      have : squeezeOne false first a ∈ (first :: rest).map (squeezeOne false first) := List.mem_map_of_mem ha
      rw [hbs] at this
      obtain ⟨x, hx, hxe⟩ := List.mem_map.1 this
      have h2 : squeezeOne false first a = some none := by simp [squeezeOne, ha0]
      rw [h2] at hxe
      exact Option.some.inj hxe ▸ hx
    have h2 : ∃ c, some c ∈ bs := by
      have : squeezeOne false first b ∈ (first :: rest).map (squeezeOne false first) := List.mem_map_of_mem hb
      rw [hbs] at this
      obtain ⟨x, hx, hxe⟩ := List.mem_map.1 this
      unfold squeezeOne at hxe
      rw [if_neg hb0] at hxe
      split_ifs at hxe
      exact ⟨b, Option.some.inj hxe ▸ hx⟩
    obtain ⟨c, hc⟩ := h2
    rw [if_neg, if_neg]
    · rw [List.all_eq_true]
      intro h
      have := h _ hc
      simp at this
    · rw [List.all_eq_true]
      intro h
      have := h _ h1
      simp at this
  · intro a ha b hb ha0 hb0 hab
    unfold squeeze
    rcases data with _ | ⟨first, rest⟩
    · simp at ha
    simp only [List.head?_cons, Option.bind_eq_bind, Option.bind_some]
    rcases hbs : (first :: rest).mapM (squeezeOne permissive first) with _ | bs
    · rfl
    simp only [Option.bind_some]
    rw [mapM_eq_some_iff] at hbs
    have hin : ∀ x ∈ first :: rest, x.dim0 ≠ 0 → some x ∈ bs := by
      intro b hb hb0
      have : squeezeOne permissive first b ∈ (first :: rest).map (squeezeOne permissive first) := List.mem_map_of_mem hb
      rw [hbs] at this
      obtain ⟨x, hx, hxe⟩ := List.mem_map.1 this
      unfold squeezeOne at hxe
      rw [if_neg hb0] at hxe
      split_ifs at hxe
      exact Option.some.inj hxe ▸ hx
    have h1 := hin a ha ha0
    have h2 := hin b hb hb0
    split_ifs with c1 c2 c3 c4
    · exfalso
      rw [List.all_eq_true] at c2
      have c2 := c2 a (List.mem_filterMap.2 ⟨_, h1, rfl⟩)
      rw [List.all_eq_true] at c2
      have c2 := c2 b (List.mem_filterMap.2 ⟨_, h2, rfl⟩)
      exact hab (by simpa using c2)
    · rfl
    · exfalso
      rw [List.all_eq_true] at c3
      have := c3 _ h1
      simp at this
    · rfl
    · rfl

/-- `read(keys, squeeze=True)` of a permissive random access reader depends on the order of the keys: with a missing
key in the second place it returns zeros, with the same missing key in the first place it raises. -/
theorem C99_order_matters (D : Decoder) (f : File) (items : List (Str × Nd)) (h : Holds D f items) (k k' : Str) (v : Nd)
    (hk : PlainKey k) (hk' : PlainKey k') (hin : (k, v) ∈ items) (hout : k' ∉ items.map (·.1)) (h0 : v.dim0 ≠ 0) :
    (randFileRead D id (some f) true [k, k'] (.int 0) (.int 0)).bind (squeeze true) = some (.stack [v, Nd.zerosLike v]) ∧
    (randFileRead D id (some f) true [k', k] (.int 0) (.int 0)).bind (squeeze true) = none := by
  have h1 : randFileOne D id f true (.int 0) (.int 0) 0 k = some v ∧ randFileOne D id f true (.int 0) (.int 0) 1 k = some v := by
    obtain ⟨d, hd, hst⟩ := h.get _ hin
    have hh : f.has k = true := (h.has k hk).2 (List.mem_map_of_mem hin)
    simp only at hd
    constructor <;> simp [randFileOne, hh, Arg.at, hd, readSet_stored hst, rowsOf?_zero]
  have h2 : randFileOne D id f true (.int 0) (.int 0) 0 k' = some emptyNd ∧ randFileOne D id f true (.int 0) (.int 0) 1 k' = some emptyNd := by
    have hh : f.has k' = false := by
      rcases hb : f.has k' with _ | _
      · rfl
      · exact absurd ((h.has k' hk').1 hb) hout
    constructor <;> simp [randFileOne, hh]
  constructor
  · have : randFileRead D id (some f) true [k, k'] (.int 0) (.int 0) = some [v, emptyNd] := by
      simp [randFileRead, Arg.fits, h1, h2]
    rw [this, Option.bind_some, C99_permissive _ v [emptyNd] rfl h0 (by intro m hm; simp at hm; subst hm; exact Or.inl rfl)]
    simp only [List.map_cons, List.map_nil, orZeros, if_neg h0]
    rfl
  · have : randFileRead D id (some f) true [k', k] (.int 0) (.int 0) = some [emptyNd, v] := by
      simp [randFileRead, Arg.fits, h1, h2]
    rw [this, Option.bind_some, C99_first_missing true [v] v (by simp) h0]

/-! ## C100 -/

theorem hypWrite_append (f : File) (field : Str) (a b : List (Str × Nd)) :
    hypWrite f field (a ++ b) = (hypWrite f field a).bind (fun g => hypWrite g field b) := by
  unfold hypWrite; rw [List.foldlM_append]; rfl

theorem hypRead_append (num : Bytes → Bytes) (f : File) (field : Str) (a b : List Str) {x : List Nd}
    (h : hypRead num f field (a ++ b) = some x) :
    hypRead num f field a = some (x.take a.length) ∧ hypRead num f field b = some (x.drop a.length) := by
  unfold hypRead at *
  rw [mapM_eq_some_iff, List.map_append] at h
  constructor
  · rw [mapM_eq_some_iff]
    have := congrArg (List.take a.length) h
    rw [List.take_left' (by simp)] at this
    rw [this, List.map_take]
  · rw [mapM_eq_some_iff]
    have := congrArg (List.drop a.length) h
    rw [List.drop_left' (by simp)] at this
    rw [this, List.map_drop]

/-- the loop over chunks writes all that is left, whatever the size of the chunks. -/
theorem mergeLoop_eq (num : Bytes → Bytes) (hr : File) (ds : List Str) (chunk : Nat) (hc : 0 < chunk) (x : List Nd)
    (hx : hypRead num hr [] ds = some x) (fuel first : Nat) (hfuel : ds.length < fuel + first) (hw : File) :
    mergeLoop num hr ds chunk fuel first hw = hypWrite hw [] ((ds.zip x).drop first) := by
  induction fuel generalizing first hw with
  | zero =>
    rw [List.drop_of_length_le (by simp; omega)]
    rfl
  | succ fuel ih =>
    rw [mergeLoop]
    by_cases hl : ds.length ≤ first
    · rw [if_pos hl, List.drop_of_length_le (by simp; omega)]
      rfl
    · rw [if_neg hl]
      have hlen : x.length = ds.length := by
        have := hx
        unfold hypRead at this
        rw [mapM_eq_some_iff] at this
        have := congrArg List.length this
        simpa using this.symm
      set last := min (first + chunk) ds.length with hlast
      have hs1 : ds = ds.take last ++ ds.drop last := (List.take_append_drop _ _).symm
      have hs2 : ds.take last = ds.take first ++ (ds.take last).drop first := by
        have : ds.take first = (ds.take last).take first := by
          rw [List.take_take]; congr 1; omega
        rw [this, List.take_append_drop]
      have r1 : hypRead num hr [] (ds.take last) = some (x.take last) := by
        rw [hs1] at hx
        have := (hypRead_append num hr [] _ _ hx).1
        rwa [List.length_take, Nat.min_eq_left (by omega)] at this
      have r2 : hypRead num hr [] ((ds.take last).drop first) = some ((x.take last).drop first) := by
        rw [hs2] at r1
        have := (hypRead_append num hr [] _ _ r1).2
        rwa [List.length_take, Nat.min_eq_left (by omega)] at this
      simp only [r2, Option.bind_eq_bind, Option.bind_some]
      have hz : (ds.zip x).drop first = ((ds.take last).drop first).zip ((x.take last).drop first) ++ (ds.zip x).drop (first + chunk) := by
        have e1 : ((ds.take last).drop first).zip ((x.take last).drop first) = ((ds.zip x).take last).drop first := by
          simp only [List.zip, List.drop_zipWith, List.take_zipWith]
        rw [e1]
        have e2 : (ds.zip x).drop (first + chunk) = (ds.zip x).drop last := by
          by_cases hle : first + chunk ≤ ds.length
          · rw [hlast, Nat.min_eq_left hle]
          · rw [List.drop_of_length_le (by simp; omega), List.drop_of_length_le (by simp; omega)]
        rw [e2]
        conv_lhs => rw [← List.take_append_drop last (ds.zip x)]
        rw [List.drop_append_of_le_length (by simp; omega)]
      rw [hz, hypWrite_append]
      congr 1
      funext g
      exact ih (first + chunk) (by omega) g

/-- datasets of a file written without compression, in the order of the keys. -/
def SortedPlain (f : File) (items : List (Str × Nd)) : Prop :=
  f.keys = items.map (·.1) ∧ ∀ it ∈ items, f.has it.1 = true ∧ f.get it.1 = some (.plain it.2)

theorem mergeFile_eq (num : Bytes → Bytes) (chunk : Option Nat) {hr : File} {items : List (Str × Nd)} (h : SortedPlain hr items)
    (hc : 0 < chunkOf chunk items.length) (hw : File) : mergeFile num chunk hw hr = hypWrite hw [] items := by
  have hx : hypRead num hr [] hr.keys = some (items.map (·.2)) := by
    unfold hypRead
    rw [mapM_eq_some_iff, h.1, List.map_map, List.map_map]
    refine List.map_congr_left (fun it hit => ?_)
    simp only [Function.comp, List.append_nil]
    rw [if_pos (h.2 it hit).1, (h.2 it hit).2]
    rfl
  have hkl : hr.keys.length = items.length := by rw [h.1, List.length_map]
  unfold mergeFile
  simp only [hkl]
  rw [if_neg (by omega), mergeLoop_eq num hr hr.keys _ hc _ hx _ _ (by omega)]
  rw [List.drop_zero, h.1]
  congr 1
  clear h hc hx hkl
  induction items with
  | nil => rfl
  | cons a l ih => simpa using ih

theorem mergeFiles_eq (num : Bytes → Bytes) (chunk : Option Nat) {files : List File} {parts : List (List (Str × Nd))}
    (h : List.Forall₂ SortedPlain files parts) (hc : ∀ p ∈ parts, 0 < chunkOf chunk p.length) (hw : File) :
    files.foldlM (mergeFile num chunk) hw = hypWrite hw [] parts.flatten := by
  induction h generalizing hw with
  | nil => rfl
  | cons a b ih =>
    rw [List.foldlM_cons, mergeFile_eq num chunk a (hc _ (by simp)), List.flatten_cons, hypWrite_append]
    congr 1
    funext g
    exact ih (fun p hp => hc p (by simp [hp])) g

theorem hypWrite_flat (items : List (Str × Nd)) (f : File) (sets : List (Str × DSet)) (hf : Flat f sets)
    (hk : ∀ it ∈ items, PlainKey it.1) :
    ((sets.map (·.1) ++ items.map (·.1)).Nodup → ∃ g, hypWrite f [] items = some g ∧
      Flat g (sets ++ items.map (fun it => (it.1, DSet.plain it.2)))) ∧
    ((sets.map (·.1)).Nodup → ¬ (sets.map (·.1) ++ items.map (·.1)).Nodup → hypWrite f [] items = none) := by
  induction items generalizing f sets with
  | nil => exact ⟨fun _ => ⟨f, rfl, by simpa using hf⟩, fun h1 h2 => absurd (by simpa using h1) h2⟩
  | cons it items ih =>
    have hkk := hk it (by simp)
    by_cases hn : it.1 ∈ sets.map (·.1)
    · refine ⟨fun h => ?_, fun _ _ => ?_⟩
      · exact absurd rfl ((List.nodup_append.1 h).2.2 _ hn it.1 (by simp))
      · unfold hypWrite
        rw [List.foldlM_cons]
        simp [hf.create_dup hkk _ hn]
    · obtain ⟨f', hf', hfl⟩ := hf.create hkk (.plain it.2) hn
      have hone : hypWrite f [] (it :: items) = hypWrite f' [] items := by
        unfold hypWrite
        rw [List.foldlM_cons]
        simp [hf']
      obtain ⟨i1, i2⟩ := ih f' _ hfl (fun x hx => hk x (by simp [hx]))
      simp only [List.map_append, List.map_cons, List.map_nil, List.append_assoc, List.singleton_append] at i1 i2
      rw [hone]
      refine ⟨fun h => ?_, fun h1 h2 => i2 ?_ (by simpa using h2)⟩
      · obtain ⟨g, hg, hgf⟩ := i1 (by simpa using h)
        exact ⟨g, hg, by simpa using hgf⟩
      · rw [List.nodup_append]
        refine ⟨h1, by simp, ?_⟩
        intro a ha b hb
        simp at hb
        subst hb
        rintro rfl
        exact hn ha

/-- files with uncompressed arrays, as the writers of this package produce them: `SortedPlain` holds of them. -/
theorem sortedPlain_flat {f : File} {items : List (Str × Nd)} (h : Flat f (items.map (fun it => (it.1, DSet.plain it.2))))
    (hk : ∀ it ∈ items, PlainKey it.1) (hnd : (items.map (·.1)).Nodup) :
    ∃ sorted : List (Str × Nd), sorted.Perm items ∧ SortedPlain f sorted := by
  have hkeys : (items.map (fun it => (it.1, DSet.plain it.2))).map (·.1) = items.map (·.1) := by
    rw [List.map_map]; rfl
  refine ⟨items.mergeSort (fun a b => decide (a.1 ≤ b.1)), List.mergeSort_perm _ _, ?_, ?_⟩
  · obtain ⟨sorted, hp, hh⟩ := Flat.holds (D := ⟨fun _ _ _ => [], fun _ _ _ => [], fun _ _ _ _ => [], fun _ => none⟩) (items := items) h (by
      intro e he
      obtain ⟨it, hit, rfl⟩ := List.mem_map.1 he
      exact hk it hit) (hkeys ▸ hnd) (by
      rw [List.forall₂_map_left_iff]
      exact List.forall₂_same.2 (fun it _ => ⟨rfl, Stored.plain _⟩))
    rw [hh.keys]
    have hp2 : (sorted.map (·.1)).Perm ((items.mergeSort (fun a b => decide (a.1 ≤ b.1))).map (·.1)) :=
      (hp.trans (List.mergeSort_perm _ _).symm).map _
    refine List.Perm.eq_of_pairwise (le := (· ≤ ·)) (fun a b _ _ h1 h2 => le_antisymm h1 h2)
      (hh.sorted.imp le_of_lt) ?_ hp2
    rw [List.pairwise_map]
    have := List.pairwise_mergeSort (le := fun a b : Str × Nd => decide (a.1 ≤ b.1))
      (fun a b c h1 h2 => by simp only [decide_eq_true_eq] at *; exact le_trans h1 h2)
      (fun a b => by simp only [Bool.or_eq_true, decide_eq_true_eq]; exact le_total _ _) items
    exact this.imp (fun h => by simpa using h)
  · intro it hit
    have hit' := (List.mergeSort_perm _ _).mem_iff.1 hit
    have hm : (it.1, DSet.plain it.2) ∈ items.map (fun it => (it.1, DSet.plain it.2)) :=
      List.mem_map.2 ⟨it, hit', rfl⟩
    refine ⟨(h.has (hk it hit')).2 (hkeys ▸ List.mem_map_of_mem hit'), ?_⟩
    rw [h.get (hk it hit'), lookup_of_mem (hkeys ▸ hnd) hm]

/-- a file holding these uncompressed arrays, written in this order. -/
def Wrote (f : File) (items : List (Str × Nd)) : Prop :=
  (∀ it ∈ items, PlainKey it.1) ∧ (items.map (·.1)).Nodup ∧ hypWrite ⟨[]⟩ [] items = some f

theorem Wrote.flat {f : File} {items : List (Str × Nd)} (h : Wrote f items) :
    Flat f (items.map (fun it => (it.1, DSet.plain it.2))) := by
  obtain ⟨g, hg, hf⟩ := (hypWrite_flat items ⟨[]⟩ [] rfl h.1).1 (by simpa using h.2.1)
  rw [h.2.2] at hg
  obtain rfl := Option.some.inj hg
  simpa using hf

theorem wrote_parts {files : List File} {inputs : List (List (Str × Nd))} (h : List.Forall₂ Wrote files inputs) :
    ∃ parts : List (List (Str × Nd)), List.Forall₂ SortedPlain files parts ∧ List.Forall₂ (fun p i => p.Perm i) parts inputs := by
  induction h with
  | nil => exact ⟨[], .nil, .nil⟩
  | cons a b ih =>
    obtain ⟨parts, h1, h2⟩ := ih
    obtain ⟨s, hs1, hs2⟩ := sortedPlain_flat a.flat a.1 a.2.1
    exact ⟨s :: parts, .cons hs2 h1, .cons hs1 h2⟩

theorem forall₂_flatten_perm {α : Type} {a b : List (List α)} (h : List.Forall₂ (fun p i => p.Perm i) a b) :
    a.flatten.Perm b.flatten := by
  induction h with
  | nil => exact .refl _
  | cons h _ ih => rw [List.flatten_cons, List.flatten_cons]; exact h.append ih

theorem forall₂_mem_left {α β : Type} {R : α → β → Prop} {a : List α} {b : List β} (h : List.Forall₂ R a b) {x : α} (hx : x ∈ a) :
    ∃ y ∈ b, R x y := by
  induction h with
  | nil => simp at hx
  | cons h _ ih =>
    rcases List.mem_cons.1 hx with rfl | hm
    · exact ⟨_, by simp, h⟩
    · obtain ⟨y, hy, hr⟩ := ih hm
      exact ⟨y, by simp [hy], hr⟩

theorem forall₂_mem_right {α β : Type} {R : α → β → Prop} {a : List α} {b : List β} (h : List.Forall₂ R a b) {y : β} (hy : y ∈ b) :
    ∃ x ∈ a, R x y := by
  induction h with
  | nil => simp at hy
  | cons h _ ih =>
    rcases List.mem_cons.1 hy with rfl | hm
    · exact ⟨_, by simp, h⟩
    · obtain ⟨x, hx, hr⟩ := ih hm
      exact ⟨x, by simp [hx], hr⟩

/-- Merging HDF5 files with uncompressed arrays and distinct keys: for every chunk size the output holds exactly the
arrays of the inputs, each under its key. -/
theorem C100_merge (D : Decoder) (num : Bytes → Bytes) (chunk : Option Nat) (files : List File) (inputs : List (List (Str × Nd)))
    (h : List.Forall₂ Wrote files inputs) (hc : ∀ i ∈ inputs, 0 < chunkOf chunk i.length)
    (hnd : (inputs.flatten.map (·.1)).Nodup) :
    ∃ (out : File) (sorted : List (Str × Nd)), mergeFiles num chunk files = some out ∧
      sorted.Perm inputs.flatten ∧ Holds D out sorted := by
  obtain ⟨parts, h1, h2⟩ := wrote_parts h
  have hperm := forall₂_flatten_perm h2
  have hkp : ∀ it ∈ parts.flatten, PlainKey it.1 := by
    intro it hit
    obtain ⟨i, hi, hit⟩ := List.mem_flatten.1 (hperm.mem_iff.1 hit)
    obtain ⟨f, _, hw⟩ := forall₂_mem_right h hi
    exact hw.1 it hit
  have hndp : (parts.flatten.map (·.1)).Nodup := (hperm.map _).nodup_iff.2 hnd
  have hcp : ∀ p ∈ parts, 0 < chunkOf chunk p.length := by
    intro p hp
    obtain ⟨i, hi, hpi⟩ := forall₂_mem_left h2 hp
    rw [hpi.length_eq]
    exact hc i hi
  obtain ⟨g, hg, hgf⟩ := (hypWrite_flat parts.flatten ⟨[]⟩ [] rfl hkp).1 (by simpa using hndp)
  rw [List.nil_append] at hgf
  obtain ⟨sorted, hs, hh⟩ := Flat.holds (D := D) (items := parts.flatten) hgf (by
      intro e he
      obtain ⟨it, hit, rfl⟩ := List.mem_map.1 he
      exact hkp it hit) (by rw [List.map_map]; exact hndp) (by
      rw [List.forall₂_map_left_iff]
      exact List.forall₂_same.2 (fun it _ => ⟨rfl, Stored.plain _⟩))
  refine ⟨g, sorted, ?_, hs.trans hperm, hh⟩
  unfold mergeFiles
  rw [mergeFiles_eq num chunk h1 hcp, hg]

/-- A key that is in two of the files makes the merge raise: no array is overwritten. -/
theorem C100_duplicate_raises (num : Bytes → Bytes) (chunk : Option Nat) (files : List File) (inputs : List (List (Str × Nd)))
    (h : List.Forall₂ Wrote files inputs) (hc : ∀ i ∈ inputs, 0 < chunkOf chunk i.length)
    (hnd : ¬ (inputs.flatten.map (·.1)).Nodup) : mergeFiles num chunk files = none := by
  obtain ⟨parts, h1, h2⟩ := wrote_parts h
  have hperm := forall₂_flatten_perm h2
  have hkp : ∀ it ∈ parts.flatten, PlainKey it.1 := by
    intro it hit
    obtain ⟨i, hi, hit⟩ := List.mem_flatten.1 (hperm.mem_iff.1 hit)
    obtain ⟨f, _, hw⟩ := forall₂_mem_right h hi
    exact hw.1 it hit
  have hcp : ∀ p ∈ parts, 0 < chunkOf chunk p.length := by
    intro p hp
    obtain ⟨i, hi, hpi⟩ := forall₂_mem_left h2 hp
    rw [hpi.length_eq]
    exact hc i hi
  unfold mergeFiles
  rw [mergeFiles_eq num chunk h1 hcp]
  refine (hypWrite_flat parts.flatten ⟨[]⟩ [] rfl hkp).2 (by simp) ?_
  intro hh
  exact hnd ((hperm.map _).nodup_iff.1 (by simpa using hh))

/-- Without a chunk size, one input without datasets makes the whole merge raise. -/
theorem C100_empty_input_raises (num : Bytes → Bytes) (before after : List File) :
    mergeFiles num none (before ++ ⟨[]⟩ :: after) = none := by
  unfold mergeFiles
  rw [List.foldlM_append]
  rcases before.foldlM (mergeFile num none) ⟨[]⟩ with _ | g
  · rfl
  · simp only [Option.bind_eq_bind, Option.bind_some, List.foldlM_cons]
    have : mergeFile num none g ⟨[]⟩ = none := rfl
    rw [this]
    rfl

/-- Compressed archives are not merged correctly: the merged file has the codes as if they were the numbers, without
the attributes needed to decode them, so that reading it gives the codes and not the matrix. -/
theorem C100_compressed_lost (D : Decoder) (num : Bytes → Bytes) (k : Str) (hk : PlainKey k) (a : CmAttrs) (chunk : Option Nat)
    (hc : chunk ≠ some 0) :
    ∃ out, mergeFiles num chunk [⟨[([k], .coded a)]⟩] = some out ∧
      ∀ tr, (SeqFile.mk (some out) [k] 0).read D tr 0 (.int 0) (.int 0) =
        some ([(k, tr (.mat .f32 a.cols (a.codes.map (List.map num))))], ⟨some out, [k], 1⟩) := by
  have hfl : Flat ⟨[([k], DSet.coded a)]⟩ [(k, .coded a)] := rfl
  have hkeys : (File.mk [([k], DSet.coded a)]).keys = [k] := by rw [hfl.keys]; rfl
  have hget : (File.mk [([k], DSet.coded a)]).get k = some (.coded a) := by rw [hfl.get hk]; simp [List.lookup]
  have hhas : (File.mk [([k], DSet.coded a)]).has k = true := (hfl.has hk).2 (by simp)
  set m : Nd := .mat .f32 a.cols (a.codes.map (List.map num)) with hm
  have hx : hypRead num ⟨[([k], .coded a)]⟩ [] [k] = some [m] := by
    simp [hypRead, hhas, hget, rawNd, hm]
  have hc' : 0 < chunkOf chunk 1 := by
    cases chunk with
    | none => simp [chunkOf]
    | some c => simp only [chunkOf]; exact Nat.pos_of_ne_zero (fun h => hc (by rw [h]))
  obtain ⟨g, hg, hgf⟩ := (hypWrite_flat [(k, m)] ⟨[]⟩ [] rfl (by simpa using hk)).1 (by simp)
  simp only [List.map_cons, List.map_nil, List.nil_append] at hgf
  refine ⟨g, ?_, fun tr => ?_⟩
  · unfold mergeFiles
    rw [List.foldlM_cons]
    have : mergeFile num chunk ⟨[]⟩ ⟨[([k], .coded a)]⟩ = some g := by
      unfold mergeFile
      simp only [hkeys, List.length_singleton]
      rw [if_neg (by omega), mergeLoop_eq num _ [k] _ hc' [m] hx _ _ (by simp)]
      simpa using hg
    rw [this]
    rfl
  · have hgg : g.get k = some (.plain m) := by rw [hgf.get hk]; simp [List.lookup]
    unfold SeqFile.read
    have hst : ∀ it ∈ [(k, m)], ∃ d, g.get it.1 = some d ∧ Stored D d it.2 := by
      intro it hit
      simp at hit
      subst hit
      exact ⟨_, hgg, .plain _⟩
    rw [seqFile_loop tr _ _ hst _ _ _ rfl rfl (by simp)]
    simp [itemRows, Arg.at, rowsOf?_zero]

/-- `read_slice(key, index, num)`: rows `index..index+num`, and fewer, silently, when there are not as many. -/
theorem C100_read_slice (f : File) (key : Str) (m : Nd) (hk : f.has key = true) (hg : f.get key = some (.plain m)) (i n : Nat)
    (hn : 0 < n) : readSlice f key i n = some (rowsOf i n m) ∧ (rowsOf i n m).dim0 = min n (m.dim0 - i) := by
  constructor
  · unfold readSlice
    rw [if_pos hk, hg]
    cases m <;> simp [rowsOf, Nat.pos_iff_ne_zero.1 hn, List.drop_take]
  · rw [dim0_rowsOf, if_neg (by omega)]

/-! ## Concrete cases that meet the hypotheses -/

theorem plainKey_utt : PlainKey ['u', '1'] ∧ PlainKey ['a', '-', 'b'] := by
  constructor <;> exact ⟨by decide, by decide, by decide⟩

/-- a written archive with an uncompressed and a compressed array, not in the order of the keys (C95, C98). -/
example (D : Decoder) : ∃ items : List (Str × KMat × Nd), items.map (·.1) = [['u', '1'], ['a', '-', 'b']] ∧
    (∀ it ∈ items, PlainKey it.1) ∧ (items.map (·.1)).Nodup ∧ (∀ it ∈ items, Given D it.2.1 it.2.2) ∧
    (∀ it ∈ items, ' ' ∉ it.1) := by
  have hwf : CmAttrs.WF ⟨2, [0, 0, 0, 0], [0, 0, 128, 63], none, 2, [[[10, 1], [20, 2]], [[30, 3], [40, 4]]]⟩ :=
    ⟨Or.inr (Or.inl rfl), rfl, rfl, by decide, by decide, by decide, by decide, by simp⟩
  obtain ⟨d, hd, _⟩ := C25_attrs_round_trip _ hwf
  have hval := Given.comp (D := D) _ d hwf hd
  revert hval
  generalize (Nd.mat Dt.f32 _ _) = v
  intro hval
  refine ⟨[(['u', '1'], .plain (.mat .f32 1 [[[1, 0, 0, 0]], [[2, 0, 0, 0]]]), .mat .f32 1 [[[1, 0, 0, 0]], [[2, 0, 0, 0]]]),
    (['a', '-', 'b'], .comp (some d), v)], rfl, ?_, by simp, ?_, ?_⟩
  · intro it hit
    simp only [List.mem_cons, List.not_mem_nil, or_false] at hit
    rcases hit with rfl | rfl
    · exact plainKey_utt.1
    · exact plainKey_utt.2
  · intro it hit
    simp only [List.mem_cons, List.not_mem_nil, or_false] at hit
    rcases hit with rfl | rfl
    · exact .plain _
    · exact hval
  · simp

/-- a file with two arrays (C96, C97, C99) and its list (C98). -/
theorem holds_example (D : Decoder) : Holds D ⟨[([['b']], .plain (.vec .f32 [[1, 0, 0, 0]])), ([['a']], .plain (.vec .f32 []))]⟩
    [(['a'], .vec .f32 []), (['b'], .vec .f32 [[1, 0, 0, 0]])] := by
  have hfl : Flat ⟨[([['b']], DSet.plain (.vec .f32 [[1, 0, 0, 0]])), ([['a']], .plain (.vec .f32 []))]⟩
    [(['b'], .plain (.vec .f32 [[1, 0, 0, 0]])), (['a'], .plain (.vec .f32 []))] := rfl
  refine ⟨by decide, by decide, ?_, ?_⟩
  · intro it hit
    simp only [List.mem_cons, List.not_mem_nil, or_false] at hit
    rcases hit with rfl | rfl
    · exact ⟨_, by decide, .plain _⟩
    · exact ⟨_, by decide, .plain _⟩
  · intro k hk
    rw [hfl.has hk]
    simp [or_comm]

/-- C98: an entry with a row range. -/
example (D : Decoder) : ∃ (fs : Files) (scp : Scp.Scp Str Str) (es : List Entry), es.length = 2 ∧ ScpHolds D fs scp es ∧ scp.key.Nodup := by
  let f : File := ⟨[([['b']], .plain (.vec .f32 [[1, 0, 0, 0], [2, 0, 0, 0]])), ([['a']], .plain (.vec .f32 []))]⟩
  refine ⟨fun p => if p = ['p'] then some f else none,
    ⟨[['b'], ['a']], [['p'], ['p']], none, some [(1, 1), (0, 0)], none⟩,
    [⟨['b'], ['p'], some (1, 1), .vec .f32 [[1, 0, 0, 0], [2, 0, 0, 0]]⟩, ⟨['a'], ['p'], some (0, 0), .vec .f32 []⟩], rfl, ?_, by decide⟩
  refine ⟨rfl, rfl, ?_, ?_⟩
  · intro i hi
    have : i = 0 ∨ i = 1 := by simp at hi; omega
    rcases this with rfl | rfl
    · exact ⟨none, rfl⟩
    · exact ⟨none, rfl⟩
  · intro e he
    simp only [List.mem_cons, List.not_mem_nil, or_false] at he
    rcases he with rfl | rfl
    · exact ⟨f, _, rfl, by decide, by decide, .plain _⟩
    · exact ⟨f, _, rfl, by decide, by decide, .plain _⟩

/-- C99: a missing second array. -/
example : squeeze true [.vec .f32 [[1, 0, 0, 0]], emptyNd] = some (.stack [.vec .f32 [[1, 0, 0, 0]], .vec .f32 [[0, 0, 0, 0]]]) :=
  C99_permissive _ _ _ rfl (by decide) (by intro m hm; simp at hm; subst hm; exact Or.inl rfl)

/-- C100: two files. -/
example : ∃ files : List File, List.Forall₂ Wrote files [[(['b'], Nd.vec .f32 [[1, 0, 0, 0]]), (['a'], .vec .f32 [])], [(['c'], .vec .f32 [])]] := by
  have ha : PlainKey ['a'] ∧ PlainKey ['b'] ∧ PlainKey ['c'] := by
    refine ⟨?_, ?_, ?_⟩ <;> exact ⟨by decide, by decide, by decide⟩
  obtain ⟨g, hg, _⟩ := (hypWrite_flat [(['b'], Nd.vec .f32 [[1, 0, 0, 0]]), (['a'], .vec .f32 [])] ⟨[]⟩ [] rfl
    (by intro it hit; simp only [List.mem_cons, List.not_mem_nil, or_false] at hit; rcases hit with rfl | rfl; exacts [ha.2.1, ha.1])).1 (by decide)
  obtain ⟨g', hg', _⟩ := (hypWrite_flat [(['c'], Nd.vec .f32 [])] ⟨[]⟩ [] rfl
    (by intro it hit; simp only [List.mem_cons, List.not_mem_nil, or_false] at hit; subst hit; exact ha.2.2)).1 (by decide)
  refine ⟨[g, g'], .cons ⟨?_, by decide, hg⟩ (.cons ⟨?_, by decide, hg'⟩ .nil)⟩
  · intro it hit; simp only [List.mem_cons, List.not_mem_nil, or_false] at hit; rcases hit with rfl | rfl; exacts [ha.2.1, ha.1]
  · intro it hit; simp only [List.mem_cons, List.not_mem_nil, or_false] at hit; subst hit; exact ha.2.2

end Hyp.H5
