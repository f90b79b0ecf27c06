import Verif.Kaldi.ArkProps

/-! Properties C22 (script files read sequentially), C23 (batches) and C24 (row ranges of script entries). -/

namespace Hyp.Kaldi
open Hyp.Text

/-! ### script readers -/

/-- the entries of a script list point at stored records: entry `i` has the key and range of item `i`, and the
file it names has at its offset the array of item `i`. -/
def ScpOk (D : Decoder) (fs : Files) (x : Scp.Scp Str Str) (items : List (Str × Option (Nat × Int) × Nd)) : Prop :=
  x.key.length = items.length ∧
  ∀ i (h : i < items.length), ∃ path o ark, x.getByPos i = some (items[i].1, path, some o, items[i].2.1) ∧
    fs path = some ark ∧ At D ark o items[i].2.2

/-- the open archive of a reader has the content of the file on disk. -/
def OpenOk (fs : Files) : Option (Str × Bytes × Bytes) → Prop
  | none => True
  | some (p, c, _) => fs p = some c

theorem openArchive_ok {fs : Files} {opened : Option (Str × Bytes × Bytes)} (h : OpenOk fs opened) {path : Str}
    {ark : Bytes} (hf : fs path = some ark) {o : Nat} (ho : 0 < o) :
    openArchive fs opened path (some o) = some (ark, ark.drop o) := by
  unfold openArchive
  cases opened with
  | none => simp [hf, ho]
  | some q =>
    obtain ⟨p, c, r⟩ := q
    by_cases hp : p = path
    · have hc : c = ark := by
        have h : fs p = some c := h
        rw [hp, hf] at h; exact (Option.some.inj h).symm
      simp [hp, hc, ho]
    · simp [hp, hf, ho]

theorem readOne_ok {D : Decoder} {fs : Files} {r : ScpReader} (hop : OpenOk fs r.opened) {key path : Str} {o : Nat}
    {range : Option (Nat × Int)} (hpos : r.scp.getByPos r.cur = some (key, path, some o, range)) {ark : Bytes}
    (hf : fs path = some ark) {v : Nd} (hat : At D ark o v) (pk : Peek) (tr : Nd → Nd) {off n o' k : Nat}
    (hc : combineRanges range off n = some (o', (k : Int))) (hr : v.RangeOk o' k) :
    ∃ r', r.readOne pk D tr fs off n = some ((key, tr (v.slice o' k)), r') ∧ r'.scp = r.scp ∧ r'.cur = r.cur + 1 ∧
      OpenOk fs r'.opened := by
  have ho : 0 < o := by obtain ⟨_, _, _, _, _, h, _⟩ := hat; exact h
  obtain ⟨s, hs⟩ := (readRecord_at hat pk tr hr).1
  unfold ScpReader.readOne
  rw [hpos]
  simp only [Option.bind_eq_bind, Option.bind_some, hc, openArchive_ok hop hf ho, natOf_nat, hs]
  exact ⟨_, rfl, rfl, rfl, hf⟩

/-- the loop of the script reader, without ranges in the script. -/
theorem scpLoop_ok {D : Decoder} {fs : Files} {items : List (Str × Option (Nat × Int) × Nd)} (pk : Peek) (tr : Nd → Nd)
    (off n : Nat) (hnone : ∀ it ∈ items, it.2.1 = none) (hr : ∀ it ∈ items, it.2.2.RangeOk off n) (k : Nat)
    (r : ScpReader) (hok : ScpOk D fs r.scp items) (hop : OpenOk fs r.opened) (hcur : r.cur ≤ items.length) :
    ∃ r', scpLoop pk D tr fs off n k r =
        some (((items.drop r.cur).take k).map (fun it => (it.1, tr (it.2.2.slice off n))), r') ∧
      r'.scp = r.scp ∧ r'.cur = min (r.cur + k) items.length ∧ OpenOk fs r'.opened := by
  induction k generalizing r with
  | zero => exact ⟨r, by simp [scpLoop], rfl, by omega, hop⟩
  | succ k ih =>
    unfold scpLoop
    by_cases hend : r.cur = r.scp.key.length
    · rw [if_pos hend]
      have hl := hok.1
      exact ⟨r, by rw [List.drop_of_length_le (by omega)]; simp, rfl, by omega, hop⟩
    · rw [if_neg hend]
      have hl := hok.1
      have hlt : r.cur < items.length := by omega
      obtain ⟨path, o, ark, hpos, hf, hat⟩ := hok.2 r.cur hlt
      have hmem : items[r.cur] ∈ items := List.getElem_mem _
      obtain ⟨r', h1, h2, h3, h4⟩ := readOne_ok hop hpos hf hat pk tr (off := off) (n := n) (o' := off) (k := n)
        (by rw [hnone _ hmem]; rfl) (hr _ hmem)
      rw [h1]
      simp only
      obtain ⟨r'', g1, g2, g3, g4⟩ := ih r' (by rw [h2]; exact hok) h4 (by omega)
      rw [g1]
      refine ⟨r'', ?_, by rw [g2, h2], by omega, g4⟩
      rw [h3]
      simp only [Option.some.injEq, Prod.mk.injEq, and_true]
      conv_rhs => rw [List.drop_eq_getElem_cons hlt, List.take_succ_cons, List.map_cons]

/-- The script file written by the writer, read sequentially, gives the same keys and arrays in the same order
(rows `off..off+n` of each). -/
theorem C22_script_sequential (D : Decoder) (sep : Char) (path : Str) (hp : PathOk sep path) (items : List (Str × KMat × Nd))
    (hne : items ≠ []) (hk : ∀ it ∈ items, isToken it.1 = true) (hsep : ∀ it ∈ items, sep ∉ it.1)
    (hv : ∀ it ∈ items, it.2.1.Value D it.2.2) :
    ∃ w x, (ArkWriter.mk [] []).write sep path (items.map (fun it => (it.1, it.2.1))) = some w ∧
      Scp.load sep ':' w.script = some x ∧
      ∀ (pk : Peek) (fs : Files) (off n : Nat), fs path = some w.ark → (∀ it ∈ items, it.2.2.RangeOk off n) →
        ∃ r', (ScpReader.mk x 0 none).read pk D id fs 0 off n =
            some (items.map (fun it => (it.1, it.2.2.slice off n)), r') ∧ r'.eof = true := by
  obtain ⟨w, x, offs, hw, hx, hxk, hxp, hxo, hxr, hat⟩ := load_script D sep path hp items hne hk hsep hv
  refine ⟨w, x, hw, hx, fun pk fs off n hfs hits => ?_⟩
  have hlen := hat.length_eq
  have hok : ScpOk D fs x (items.map (fun it => (it.1, none, it.2.2))) := by
    refine ⟨by simp [hxk], fun i hi => ?_⟩
    have hi' : i < items.length := by simpa using hi
    refine ⟨path, offs[i]'(by omega), w.ark, ?_, hfs, ?_⟩
    · simp only [List.getElem_map]
      exact getByPos_of hxk hxp hxo hxr (by rw [List.getElem?_map, List.getElem?_eq_getElem hi']; rfl)
        (by rw [List.getElem?_map, List.getElem?_eq_getElem hi']; rfl) (List.getElem?_eq_getElem (by omega))
    · have := (List.forall₂_iff_get.1 hat).2 i hi' (by omega)
      simpa using this
  obtain ⟨r', h1, h2, h3, _⟩ := scpLoop_ok pk id off n
    (by intro it hit; obtain ⟨y, hy, rfl⟩ := List.mem_map.1 hit; rfl)
    (by intro it hit; obtain ⟨y, hy, rfl⟩ := List.mem_map.1 hit; exact hits y hy)
    x.key.length (ScpReader.mk x 0 none) hok trivial (by simp)
  refine ⟨r', ?_, ?_⟩
  · unfold ScpReader.read
    simp only [if_true, Nat.sub_zero]
    rw [h1]
    rw [List.drop_zero, List.take_of_length_le (by simp [hxk]), List.map_map]
    rfl
  · unfold ScpReader.eof
    rw [h2, h3]
    simp [hxk]

/-! ## C23 -/

/-- a sequence of calls `read(k)` for the `k` in `ks`; the results of the calls and the reader afterwards. -/
def readMany {σ β : Type} (step : σ → Nat → Option (List β × σ)) : σ → List Nat → Option (List (List β) × σ)
  | r, [] => some ([], r)
  | r, k :: ks =>
    match step r k with
    | none => none
    | some (x, r) => (readMany step r ks).map (fun p => (x :: p.1, p.2))

theorem ark_readMany {D : Decoder} (pk : Peek) (tr : Nd → Nd) (ks : List Nat) (hpos : ∀ k ∈ ks, 0 < k)
    (items : List (Str × Nd)) (r : ArkReader) (h : Enc D items r.rest) :
    ∃ outs r', readMany (fun r k => r.read pk D tr k 0 0) r ks = some (outs, r') ∧
      outs.flatten = (items.take ks.sum).map (fun it => (it.1, tr it.2)) ∧
      (∀ p ∈ outs.zip ks, p.1.length ≤ p.2) ∧
      Enc D (items.drop ks.sum) r'.rest ∧ r'.content = r.content ∧
      (r'.eof = true ↔ r.eof = true ∨ items.length < ks.sum) := by
  induction ks generalizing items r with
  | nil => exact ⟨[], r, rfl, by simp, by simp, by simpa using h, rfl, by simp⟩
  | cons k ks ih =>
    have hk := hpos k (by simp)
    obtain ⟨r1, h1, h2, h3, h4⟩ := ArkReader.read_enc h pk tr k 0 0 (fun it _ => Nd.rangeOk_zero _)
    have hk0 : k ≠ 0 := by omega
    rw [if_neg hk0] at h1 h2
    obtain ⟨outs, r', g1, g2, g2', g3, g4, g5⟩ := ih (fun x hx => hpos x (List.mem_cons_of_mem _ hx)) _ r1 h2
    refine ⟨(items.take k).map (fun it => (it.1, tr (it.2.slice 0 0))) :: outs, r', ?_, ?_, ?_, ?_, by rw [g4, h3], ?_⟩
    · unfold readMany
      simp only [h1]
      simp only [g1]; rfl
    · simp only [List.flatten_cons, List.sum_cons, g2, Nd.slice_zero]
      rw [List.take_add, List.map_append]
    · intro p hp
      rcases List.mem_cons.1 hp with rfl | hp
      · simp
      · exact g2' p hp
    · rw [List.sum_cons, ← List.drop_drop]; exact g3
    · rw [g5, h4, List.length_drop, List.sum_cons]
      constructor
      · rintro ((h | h | h) | h)
        · exact Or.inl h
        · exact absurd h hk0
        · right; omega
        · right; omega
      · rintro (h | h)
        · exact Or.inl (Or.inl h)
        · by_cases hl : items.length < k
          · exact Or.inl (Or.inr (Or.inr hl))
          · right; omega

/-- Reading an archive with any positive batch sizes: the results, put together, are the first records of the
archive in order - as many as the batch sizes add up to, so no record is lost or repeated - and the same as one
`read()` of everything once the reader reports the end of the file. It reports the end exactly when more records
were asked for than there are. After `reset` the reader is as when it was opened. -/
theorem C23_batches_ark (D : Decoder) (sep : Char) (path : Str) (items : List (Str × KMat × Nd))
    (hk : ∀ it ∈ items, isToken it.1 = true) (hv : ∀ it ∈ items, it.2.1.Value D it.2.2) :
    ∃ w, (ArkWriter.mk [] []).write sep path (items.map (fun it => (it.1, it.2.1))) = some w ∧
      ∀ (pk : Peek) (ks : List Nat), (∀ k ∈ ks, 0 < k) →
        ∃ outs r', readMany (fun r k => ArkReader.read pk D id r k 0 0) (ArkReader.open w.ark) ks = some (outs, r') ∧
          outs.flatten = (items.map (fun it => (it.1, it.2.2))).take ks.sum ∧
          (∀ p ∈ outs.zip ks, p.1.length ≤ p.2) ∧
          (r'.eof = true ↔ items.length < ks.sum) ∧
          (r'.eof = true → outs.flatten = items.map (fun it => (it.1, it.2.2))) ∧
          r'.reset = ArkReader.open w.ark := by
  obtain ⟨w, bs, offs, hw, ha, henc, _, _⟩ := write_spec sep path items hk hv ⟨[], []⟩
  refine ⟨w, hw, fun pk ks hpos => ?_⟩
  have henc' : Enc D (items.map (fun it => (it.1, it.2.2))) (ArkReader.open w.ark).rest := by
    have : (ArkReader.open w.ark).rest = bs := by simp [ArkReader.open, ha]
    rw [this]; exact henc
  obtain ⟨outs, r', h1, h2, h3, h4, h5, h6⟩ := ark_readMany pk id ks hpos _ _ henc'
  have h2' : outs.flatten = (items.map (fun it => (it.1, it.2.2))).take ks.sum := by
    rw [h2]; exact List.map_id _
  have h6' : r'.eof = true ↔ items.length < ks.sum := by
    rw [h6]; simp [ArkReader.open]
  refine ⟨outs, r', h1, h2', h3, h6', fun he => ?_, ?_⟩
  · rw [h2']
    have := h6'.1 he
    exact List.take_of_length_le (by simp; omega)
  · unfold ArkReader.reset ArkReader.open
    rw [h5]; rfl

theorem copyLoop_enc {D : Decoder} (pk : Peek) (tr : Nd → Nd) (chunk : Nat) (fuel : Nat)
    (items : List (Str × Nd)) (hf : items.length + 1 < fuel) (r : ArkReader) (h : Enc D items r.rest)
    (he : r.eof = true → items = []) :
    ∃ chunks, copyLoop pk D tr chunk fuel r = some chunks ∧
      chunks.flatten = items.map (fun it => (it.1, tr it.2)) := by
  induction fuel generalizing items r with
  | zero => omega
  | succ fuel ih =>
    unfold copyLoop
    by_cases hr : r.eof = true
    · rw [if_pos hr]
      exact ⟨[], rfl, by rw [he hr]; rfl⟩
    · rw [if_neg hr]
      obtain ⟨r1, h1, h2, h3, h4⟩ := ArkReader.read_enc h pk tr chunk 0 0 (fun it _ => Nd.rangeOk_zero _)
      rw [h1]
      cases items with
      | nil => exact ⟨[], by simp, rfl⟩
      | cons it items =>
        obtain ⟨m, hm⟩ : ∃ m, (if chunk = 0 then (it :: items).length else chunk) = m + 1 := by
          split
          · exact ⟨items.length, by simp⟩
          · exact ⟨chunk - 1, by omega⟩
        rw [hm] at h2 ⊢
        simp only [List.take_succ_cons, List.map_cons]
        simp only [List.drop_succ_cons] at h2
        simp only [List.length_cons] at hf
        obtain ⟨chunks, g1, g2⟩ := ih (items.drop m) (by rw [List.length_drop]; omega) r1 h2 (by
          intro he1
          rcases h4.1 he1 with h | h | h
          · exact absurd h hr
          · rw [h, if_pos rfl] at hm
            simp at hm
            simp [hm]
          · split at hm
            · simp at hm; simp [hm]
            · simp at h
              exact List.drop_of_length_le (by omega))
        rw [g1]
        refine ⟨_, rfl, ?_⟩
        simp only [List.flatten_cons, g2, Nd.slice_zero, List.cons_append]
        rw [← List.map_append, List.take_append_drop]

/-- Copying an archive with any chunk size (0 = everything at once) passes to the writer exactly the records of
the archive, in order; so the output does not depend on the chunk size. -/
theorem C23_copy_chunk_size (D : Decoder) (sep : Char) (path : Str) (items : List (Str × KMat × Nd))
    (hk : ∀ it ∈ items, isToken it.1 = true) (hv : ∀ it ∈ items, it.2.1.Value D it.2.2) :
    ∃ w, (ArkWriter.mk [] []).write sep path (items.map (fun it => (it.1, it.2.1))) = some w ∧
      ∀ (pk : Peek) (chunk fuel : Nat), items.length + 1 < fuel →
        ∃ chunks, copyLoop pk D id chunk fuel (ArkReader.open w.ark) = some chunks ∧
          chunks.flatten = items.map (fun it => (it.1, it.2.2)) ∧
          ∀ (sep' : Char) (path' : Str) (conv : Nd → KMat) (w0 : ArkWriter),
            chunks.foldlM (fun w c => ArkWriter.write sep' path' w (c.map (fun r => (r.1, conv r.2)))) w0 =
              w0.write sep' path' (items.map (fun it => (it.1, conv it.2.2))) := by
  obtain ⟨w, bs, offs, hw, ha, henc, _, _⟩ := write_spec sep path items hk hv ⟨[], []⟩
  refine ⟨w, hw, fun pk chunk fuel hf => ?_⟩
  have henc' : Enc D (items.map (fun it => (it.1, it.2.2))) (ArkReader.open w.ark).rest := by
    have : (ArkReader.open w.ark).rest = bs := by simp [ArkReader.open, ha]
    rw [this]; exact henc
  obtain ⟨chunks, h1, h2⟩ := copyLoop_enc pk id chunk fuel _ (by simpa using hf) _ henc' (by simp [ArkReader.open])
  have h2' : chunks.flatten = items.map (fun it => (it.1, it.2.2)) := by rw [h2]; exact List.map_id _
  refine ⟨chunks, h1, h2', fun sep' path' conv w0 => ?_⟩
  have := C22_write_calls sep' path' w0 (chunks.map (List.map (fun r => (r.1, conv r.2))))
  rw [List.foldlM_map] at this
  rw [this, ← List.map_flatten, h2', List.map_map]
  rfl

/-- Reading a script list with any batch sizes (0 = all that is left): the results put together are the entries
in order. -/
theorem C23_batches_script (D : Decoder) (fs : Files) (x : Scp.Scp Str Str) (items : List (Str × Nd))
    (hok : ScpOk D fs x (items.map (fun it => (it.1, none, it.2)))) (pk : Peek) (ks : List Nat) (hpos : ∀ k ∈ ks, 0 < k) :
    ∃ outs r', readMany (fun r k => ScpReader.read pk D id fs r k 0 0) ⟨x, 0, none⟩ ks = some (outs, r') ∧
      outs.flatten = items.take ks.sum ∧ (∀ p ∈ outs.zip ks, p.1.length ≤ p.2) ∧
      (r'.eof = true ↔ items.length ≤ ks.sum) ∧ r'.reset = ⟨x, 0, none⟩ := by
  have key : ∀ (ks : List Nat), (∀ k ∈ ks, 0 < k) → ∀ r : ScpReader, r.scp = x → OpenOk fs r.opened → r.cur ≤ items.length →
      ∃ outs r', readMany (fun r k => ScpReader.read pk D id fs r k 0 0) r ks = some (outs, r') ∧
        outs.flatten = (items.drop r.cur).take ks.sum ∧ (∀ p ∈ outs.zip ks, p.1.length ≤ p.2) ∧
        r'.scp = x ∧ r'.cur = min (r.cur + ks.sum) items.length := by
    intro ks
    induction ks with
    | nil => intro _ r hx _ hc; exact ⟨[], r, rfl, by simp, by simp, hx, by simp; omega⟩
    | cons k ks ih =>
      intro hpos r hx hop hc
      have hk := hpos k (by simp)
      obtain ⟨r1, h1, h2, h3, h4⟩ := scpLoop_ok pk id 0 0 (items := items.map (fun it => (it.1, none, it.2)))
        (by intro it hit; obtain ⟨y, hy, rfl⟩ := List.mem_map.1 hit; rfl) (fun it _ => Nd.rangeOk_zero _) k r (by rw [hx]; exact hok) hop (by simpa using hc)
      have hc1 : r1.cur = min (r.cur + k) items.length := by simpa using h3
      obtain ⟨outs, r', g1, g2, g3, g4, g5⟩ := ih (fun y hy => hpos y (List.mem_cons_of_mem _ hy)) r1
        (by rw [h2, hx]) h4 (by omega)
      have hk0 : k ≠ 0 := by omega
      have hout : ((items.map (fun it => (it.1, (none : Option (Nat × Int)), it.2))).drop r.cur |>.take k).map
          (fun it => (it.1, id (it.2.2.slice 0 0))) = (items.drop r.cur).take k := by
        simp only [Nd.slice_zero, ← List.map_drop, ← List.map_take, List.map_map]
        exact List.map_id _
      refine ⟨(items.drop r.cur).take k :: outs, r', ?_, ?_, ?_, g4, ?_⟩
      · unfold readMany
        have : r.read pk D id fs k 0 0 = scpLoop pk D id fs 0 0 k r := by
          unfold ScpReader.read; rw [if_neg hk0]
        simp only [this]
        rw [h1]
        simp only [g1, hout]; rfl
      · rw [List.flatten_cons, g2, hc1, List.sum_cons, List.take_add, List.drop_drop]
        congr 2
        rcases Nat.le_total (r.cur + k) items.length with h | h
        · rw [Nat.min_eq_left h]
        · rw [Nat.min_eq_right h, List.drop_of_length_le (Nat.le_refl _), List.drop_of_length_le h]
      · intro p hp
        rcases List.mem_cons.1 hp with rfl | hp
        · simp
        · exact g3 p hp
      · rw [g5, hc1, List.sum_cons]; omega
  obtain ⟨outs, r', h1, h2, h3, h4, h5⟩ := key ks hpos ⟨x, 0, none⟩ rfl trivial (by simp)
  refine ⟨outs, r', h1, by simpa using h2, h3, ?_, ?_⟩
  · unfold ScpReader.eof
    have := hok.1
    simp only [List.length_map] at this
    rw [h4, h5, this]
    simp
  · unfold ScpReader.reset; rw [h4]

/-! ## C24 -/

/-- the rows a script entry stands for: `cnt` rows from row `a` on (`cnt = 0`: to the end). -/
def entryRows {α : Type} (rows : List α) (a cnt : Nat) : List α :=
  if cnt = 0 then rows.drop a else (rows.drop a).take cnt

/-- Full property: reading a script entry `path[a:a+cnt]` with `off`, `n` returns rows `off..off+n` of the entry
(`n = 0`: to its end) and raises when they are not inside the entry.
Proved: the returned rows are right whenever the request lies inside the entry and, if the request has an offset
and the entry an end, it says how many rows it wants. Missing: the code does not check the offset against the end
of the entry, see `C24_reads_outside_the_entry`. -/
theorem C24_script_range_partial (D : Decoder) (fs : Files) (r : ScpReader) (hop : OpenOk fs r.opened) (key path : Str)
    (o a cnt : Nat) (hpos : r.scp.getByPos r.cur = some (key, path, some o, some (a, (cnt : Int)))) (ark : Bytes)
    (hf : fs path = some ark) (dt : Dt) (cols : Nat) (rows : List (List Bytes))
    (hat : At D ark o (.mat dt cols rows)) (hent : a + cnt ≤ rows.length) (pk : Peek) (off n : Nat)
    (hin : off + n ≤ (entryRows rows a cnt).length) (hoff : n = 0 → cnt ≠ 0 → off = 0) :
    ∃ r', r.readOne pk D id fs off n =
      some ((key, .mat dt cols (if n = 0 then (entryRows rows a cnt).drop off else ((entryRows rows a cnt).drop off).take n)), r') := by
  have hlen : (entryRows rows a cnt).length = if cnt = 0 then rows.length - a else cnt := by
    unfold entryRows; split <;> simp <;> omega
  rw [hlen] at hin
  by_cases hn : n = 0
  · subst hn
    obtain ⟨r', h, _⟩ := readOne_ok hop hpos hf hat pk id (off := off) (n := 0) (o' := off + a) (k := cnt)
      (by simp [combineRanges]) (by
        simp only [Nd.RangeOk]
        by_cases hc : cnt = 0
        · simp [hc] at hin ⊢; omega
        · have := hoff rfl hc; omega)
    refine ⟨r', ?_⟩
    rw [h]
    simp only [Nd.slice, id, if_true, entryRows]
    by_cases hc : cnt = 0
    · simp [hc, List.drop_drop, Nat.add_comm]
    · have := hoff rfl hc
      simp [hc, this]
  · have hcomb : combineRanges (some (a, (cnt : Int))) off n = some (off + a, (n : Int)) := by
      unfold combineRanges
      simp only [hn, if_false]
      by_cases hc : cnt = 0
      · simp [hc]
      · rw [if_neg hc] at hin
        rw [if_pos (by omega), if_pos (by omega)]
    obtain ⟨r', h, _⟩ := readOne_ok hop hpos hf hat pk id hcomb (by
      simp only [Nd.RangeOk]
      by_cases hc : cnt = 0
      · simp [hc] at hin; omega
      · rw [if_neg hc] at hin; omega)
    refine ⟨r', ?_⟩
    rw [h]
    simp only [Nd.slice, id, hn, if_false, entryRows]
    by_cases hc : cnt = 0
    · simp [hc, List.drop_drop, Nat.add_comm]
    · rw [if_neg hc] at hin
      simp only [hc, if_false]
      rw [List.drop_take, List.take_take, List.drop_drop, Nat.add_comm a off, Nat.min_eq_left (by omega)]

/-- More rows than the entry has: an exception. -/
theorem C24_too_many_rows_raises (pk : Peek) (D : Decoder) (fs : Files) (r : ScpReader) (key path : Str)
    (o : Option Nat) (a cnt : Nat) (hpos : r.scp.getByPos r.cur = some (key, path, o, some (a, (cnt : Int))))
    (hc : 0 < cnt) (off n : Nat) (hn : cnt < n) : r.readOne pk D id fs off n = none := by
  unfold ScpReader.readOne
  rw [hpos]
  simp only [Option.bind_eq_bind, Option.bind_some]
  have : combineRanges (some (a, (cnt : Int))) off n = none := by
    unfold combineRanges
    simp only
    rw [if_neg (by omega), if_pos (by omega), if_neg (by omega)]
  rw [this]; rfl

/-- The offset of the request is not checked against the end of the entry: of a 3-row matrix, the entry `[0:1]`
(one row) read with offset 1 returns row 1, which is outside the entry; also when one row is asked for. -/
theorem C24_reads_outside_the_entry :
    ∃ (ark : Bytes) (r : ScpReader),
      r.scp.getByPos 0 = some (['u'], ['f'], some 2, some (0, 1)) ∧
      (∀ D, At D ark 2 (.mat .f32 1 [[[1, 0, 0, 0]], [[2, 0, 0, 0]], [[3, 0, 0, 0]]])) ∧
      ∀ (D : Decoder) (pk : Peek) (n : Nat), n ≤ 1 →
        ∃ r', r.readOne pk D id (fun _ => some ark) 1 n = some ((['u'], .mat .f32 1 [[[2, 0, 0, 0]]]), r') := by
  obtain ⟨w, x, h⟩ : ∃ out, writeMat (.mat .f32 1 [[[1, 0, 0, 0]], [[2, 0, 0, 0]], [[3, 0, 0, 0]]]) = some out ∧ True :=
    ⟨_, rfl, trivial⟩
  have hat : ∀ D, At D ([117, 32] ++ (binMarker ++ w ++ [])) 2 (.mat .f32 1 [[[1, 0, 0, 0]], [[2, 0, 0, 0]], [[3, 0, 0, 0]]]) := by
    intro D
    obtain ⟨body, hb, hs⟩ := value_stored (KMat.Value.plain (D := D)
      (.mat .f32 1 [[[1, 0, 0, 0]], [[2, 0, 0, 0]], [[3, 0, 0, 0]]])
      (by unfold Nd.WF; decide) (Or.inl rfl) (by unfold Nd.SizesOk; decide))
    have hbw : body = w := by
      have : writeMat (.mat .f32 1 [[[1, 0, 0, 0]], [[2, 0, 0, 0]], [[3, 0, 0, 0]]]) = some body := hb
      rw [x] at this; exact (Option.some.inj this).symm
    rw [hbw] at hs
    exact ⟨[117, 32], w, [], rfl, rfl, by decide, hs⟩
  refine ⟨[117, 32] ++ (binMarker ++ w ++ []), ⟨⟨[['u']], [['f']], some [2], some [(0, 1)], none⟩, 0, none⟩, rfl, hat, ?_⟩
  intro D pk n hn
  have hcomb : combineRanges (some (0, 1)) 1 n = some (1, ((1 : Nat) : Int)) := by
    have : n = 0 ∨ n = 1 := by omega
    rcases this with rfl | rfl <;> decide
  obtain ⟨r', h1, _⟩ := readOne_ok (D := D) (fs := fun _ => some ([117, 32] ++ (binMarker ++ w ++ [])))
    (r := ⟨⟨[['u']], [['f']], some [2], some [(0, 1)], none⟩, 0, none⟩) trivial rfl rfl (hat D) pk id hcomb
    (by simp [Nd.RangeOk])
  exact ⟨r', by rw [h1]; rfl⟩

/-- The shape reported for a script entry is the shape of what reading the entry returns. -/
theorem C24_shape_agrees (range : Option (Nat × Int)) (rows cols o : Nat) (k : Nat)
    (hc : combineRanges range 0 0 = some (o, (k : Int))) (hin : o + k ≤ rows) (dt : Dt) (data : List (List Bytes))
    (hd : data.length = rows) :
    applyRangeToShape [(rows : Int), (cols : Int)] o k =
      some (((Nd.mat dt cols data).slice o k).shape.map (fun (d : Nat) => (d : Int))) := by
  unfold applyRangeToShape
  by_cases hk : k = 0
  · subst hk
    by_cases ho : o = 0
    · simp [ho, Nd.slice, Nd.shape, hd]
    · rw [if_pos (by left; omega)]
      simp [Nd.slice, Nd.shape, hd]; omega
  · rw [if_pos (by right; omega)]
    simp only
    rw [if_pos (by omega), if_pos (by omega)]
    simp [Nd.slice, Nd.shape, hk, hd]; omega

/-! ### examples: a non-trivial archive meets the hypotheses -/

example (D : Decoder) : ∃ items : List (Str × KMat × Nd), items.length = 2 ∧
    (∀ it ∈ items, isToken it.1 = true) ∧ (∀ it ∈ items, it.2.1.Value D it.2.2) ∧ (items.map (·.1)).Nodup ∧
    (∀ it ∈ items, ' ' ∉ it.1) := by
  have hwf : CmAttrs.WF ⟨2, [0, 0, 0, 0], [0, 0, 128, 63], none, 2, [[[10, 1], [20, 2]], [[30, 3], [40, 4]]]⟩ :=
    ⟨Or.inr (Or.inl rfl), rfl, rfl, by decide, by decide, by decide, by decide, by simp⟩
  obtain ⟨d, hd, _⟩ := C25_attrs_round_trip _ hwf
  have hval := KMat.Value.comp (D := D) _ d hwf hd
  revert hval
  generalize (Nd.mat Dt.f32 _ _) = v
  intro hval
  refine ⟨[(['a', '1'], .plain (.mat .f32 1 [[[1, 0, 0, 0]], [[2, 0, 0, 0]]]), .mat .f32 1 [[[1, 0, 0, 0]], [[2, 0, 0, 0]]]),
    (['b'], .comp (some d), v)], rfl, ?_, ?_, ?_, ?_⟩
  · simp; decide
  · intro it hit
    simp only [List.mem_cons, List.not_mem_nil, or_false] at hit
    rcases hit with rfl | rfl
    · exact KMat.Value.plain _ (by unfold Nd.WF; decide) (Or.inl rfl) (by unfold Nd.SizesOk; decide)
    · exact hval
  · simp
  · simp

example : PathOk ' ' ['o', 'u', 't', '/', 'x', '.', 'a', 'r', 'k'] := by
  refine ⟨?_, by decide⟩
  refine ⟨by decide, by decide, by decide, by decide, by decide, ?_⟩
  simp; decide

end Hyp.Kaldi
