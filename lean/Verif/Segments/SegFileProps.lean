import Verif.Segments.SegFile
import Verif.Segments.SegOpsProps
import Verif.Segments.RttmOpsProps

/-! Property C177: saving and loading segment lists and diarisations. -/

namespace Hyp.Segments
open Hyp.Text

theorem splitAll_join {sep : Char} {l : List Str} (hl : l ≠ []) (h : ∀ f ∈ l, sep ∉ f) : splitAll sep (joinFields sep l) = l := by
  induction l with
  | nil => exact absurd rfl hl
  | cons a l ih =>
    cases l with
    | nil => exact splitAll_noSep (h a (by simp))
    | cons b l =>
      rw [joinFields, splitAll_append (h a (by simp)), ih (by simp) (fun f hf => h f (by simp [hf]))]

theorem mem_joinFields {sep c : Char} {l : List Str} (h : c ∈ joinFields sep l) : c = sep ∨ ∃ f ∈ l, c ∈ f := by
  induction l with
  | nil => simp [joinFields] at h
  | cons a l ih =>
    cases l with
    | nil => exact Or.inr ⟨a, by simp, h⟩
    | cons b l =>
      rw [joinFields, List.mem_append, List.mem_cons] at h
      rcases h with h | h | h
      · exact Or.inr ⟨a, by simp, h⟩
      · exact Or.inl h
      · rcases ih h with h | ⟨f, hf, hc⟩
        · exact Or.inl h
        · exact Or.inr ⟨f, by simp [hf], hc⟩

/-- a text which can be a field of a file with this separator: no separator, quote or end of line. -/
def Plain (sep : Char) (s : Str) : Prop := sep ∉ s ∧ '\n' ∉ s ∧ '\r' ∉ s ∧ '"' ∉ s

theorem read_table {sep : Char} {n : Nat} (hn : 2 ≤ n) (hs1 : sep ≠ '\n') (hs2 : sep ≠ '\r') {table : List (List Str)}
    (ht : ∀ r ∈ table, r.length = n ∧ ∀ f ∈ r, Plain sep f) : readTable sep n (tableText sep table) = some table := by
  unfold readTable tableText
  dsimp only
  have hnl : ∀ r ∈ table, '\n' ∉ joinFields sep r ∧ '\r' ∉ joinFields sep r := by
    intro r hr
    constructor
    · intro hc
      rcases mem_joinFields hc with h | ⟨f, hf, hc⟩
      · exact hs1 h.symm
      · exact ((ht r hr).2 f hf).2.1 hc
    · intro hc
      rcases mem_joinFields hc with h | ⟨f, hf, hc⟩
      · exact hs2 h.symm
      · exact ((ht r hr).2 f hf).2.2.1 hc
  have hfm : (table.flatMap (fun r => joinFields sep r ++ ['\n'])) = (table.map (joinFields sep)).flatMap (fun l => l ++ ['\n']) := by
    rw [List.flatMap_map]
  have e1 : fileLines (table.flatMap (fun r => joinFields sep r ++ ['\n'])) = table.map (fun r => joinFields sep r ++ ['\n']) := by
    rw [hfm, fileLines_join, List.map_map]
    · rfl
    · intro l hl
      obtain ⟨r, hr, rfl⟩ := List.mem_map.1 hl
      exact hnl r hr
  have htake : ∀ s : Str, '\n' ∉ s → (s ++ ['\n']).takeWhile (fun c => decide (c ≠ '\n')) = s := by
    intro s h
    induction s with
    | nil => simp
    | cons c s ih =>
      simp only [List.mem_cons, not_or] at h
      rw [List.cons_append, List.takeWhile_cons, if_pos (by simpa using Ne.symm h.1), ih h.2]
  have e2 : (table.map (fun r => joinFields sep r ++ ['\n'])).map (fun l => l.takeWhile (fun c => decide (c ≠ '\n'))) = table.map (joinFields sep) := by
    rw [List.map_map]
    apply List.map_congr_left
    intro r hr
    exact htake _ (hnl r hr).1
  have e3 : (table.map (joinFields sep)).filter (fun l => decide (l ≠ [])) = table.map (joinFields sep) := by
    rw [List.filter_eq_self]
    intro l hl
    obtain ⟨r, hr, rfl⟩ := List.mem_map.1 hl
    have hlen := (ht r hr).1
    match r, hlen with
    | [], h => simp at h; omega
    | [_], h => simp at h; omega
    | a :: b :: r, _ => simp [joinFields]
  rw [e1, e2, e3, List.map_map, mapM_eq_some_iff, List.map_map]
  apply List.map_congr_left
  intro r hr
  obtain ⟨h1, h2⟩ := ht r hr
  have : splitAll sep (joinFields sep r) = r := splitAll_join (by rintro rfl; simp at h1; omega) (fun f hf => (h2 f hf).1)
  show (if (splitAll sep (joinFields sep r)).length = n then some (splitAll sep (joinFields sep r)) else none) = some r
  rw [this, if_pos h1]

variable {K : Type} [Field K] [LinearOrder K] [IsStrictOrderedRing K] [FloorRing K]

theorem plain_fmt3 {sep : Char} (hd : digitVal sep = none) (hp : sep ≠ '.') (t : K) : Plain sep (fmt3 t) := by
  have key : ∀ c : Char, digitVal c = none → c ≠ '.' → c ∉ fmt3 t := by
    intro c h1 h2 hc
    unfold fmt3 at hc
    dsimp only at hc
    rw [List.mem_append] at hc
    rcases hc with hc | hc
    · exact not_mem_printNat h1 hc
    · simp only [List.mem_cons, List.not_mem_nil, or_false] at hc
      have hdig : ∀ d, d < 10 → c ≠ digitChar d := by
        rintro d hd rfl
        rw [digitVal_digitChar hd] at h1
        cases h1
      rcases hc with hc | hc | hc | hc
      · exact h2 hc
      · exact hdig _ (Nat.mod_lt _ (by norm_num)) hc
      · exact hdig _ (Nat.mod_lt _ (by norm_num)) hc
      · exact hdig _ (Nat.mod_lt _ (by norm_num)) hc
  exact ⟨key sep hd hp, key '\n' (by decide) (by decide), key '\r' (by decide) (by decide), key '"' (by decide) (by decide)⟩

theorem readDec_fmt3 (t : K) : readDec (K := K) (fmt3 t) = some (((roundEven (t * 1000)).toNat : K) / 1000) := by
  unfold readDec fmt3
  dsimp only
  generalize (roundEven (t * 1000)).toNat = n
  rw [splitOnce_append (not_mem_printNat (by decide))]
  dsimp only
  have : parseNat (printNat (n / 1000) ++ [digitChar (n / 100 % 10), digitChar (n / 10 % 10), digitChar (n % 10)]) = some n := by
    unfold parseNat
    rw [if_neg (by simp [printNat_ne_nil]), foldl_digits, foldl_printNat]
    have h1 : n / 100 % 10 < 10 := Nat.mod_lt _ (by norm_num)
    have h2 : n / 10 % 10 < 10 := Nat.mod_lt _ (by norm_num)
    have h3 : n % 10 < 10 := Nat.mod_lt _ (by norm_num)
    simp only [List.foldl_cons, List.foldl_nil, Option.bind_some, digitVal_digitChar h1, digitVal_digitChar h2, digitVal_digitChar h3, Option.map_some]
    congr 1
    omega
  rw [this]
  simp only [Option.map_some, List.length_cons, List.length_nil]
  norm_num

/-- `t'` is a whole number of milliseconds, at most half a millisecond from `t`. -/
def NearestMs (t t' : K) : Prop := (∃ n : ℕ, t' = (n : K) / 1000) ∧ |t' - t| ≤ 1 / 2000

theorem nearest_ms {t : K} (h : 0 ≤ t) : NearestMs t (((roundEven (t * 1000)).toNat : K) / 1000) := by
  refine ⟨⟨_, rfl⟩, ?_⟩
  have h0 : 0 ≤ roundEven (t * 1000) := le_roundEven (by push_cast; positivity)
  have hc : ((roundEven (t * 1000)).toNat : K) = (roundEven (t * 1000) : K) := by
    have := Int.toNat_of_nonneg h0
    exact_mod_cast congrArg (Int.cast : ℤ → K) this
  rw [hc]
  obtain ⟨h1, h2⟩ := roundEven_bounds (t * 1000)
  rw [abs_le]
  constructor <;> linarith

theorem ms_mono {a b : K} (h : a ≤ b) : ((roundEven (a * 1000)).toNat : K) / 1000 ≤ ((roundEven (b * 1000)).toNat : K) / 1000 := by
  have : (roundEven (a * 1000)).toNat ≤ (roundEven (b * 1000)).toNat := Int.toNat_le_toNat (roundEven_mono (by linarith))
  have h2 : ((roundEven (a * 1000)).toNat : K) ≤ ((roundEven (b * 1000)).toNat : K) := by exact_mod_cast this
  linarith

omit [FloorRing K] in
theorem NearestMs.exact {t t' : K} (h : NearestMs t t') (m : ℕ) (hm : t = (m : K) / 1000) : t' = t := by
  obtain ⟨⟨n, rfl⟩, hab⟩ := h
  subst hm
  rw [abs_le] at hab
  have h1 : (n : K) < (m : K) + 1 := by linarith [hab.2]
  have h2 : (m : K) < (n : K) + 1 := by linarith [hab.1]
  have h1' : n < m + 1 := by exact_mod_cast h1
  have h2' : m < n + 1 := by exact_mod_cast h2
  have : n = m := by omega
  rw [this]

/-- a separator: not a digit, dot or end of line. -/
def GoodSep (sep : Char) : Prop := digitVal sep = none ∧ sep ≠ '.' ∧ sep ≠ '\n' ∧ sep ≠ '\r'

theorem mapM_readDec {α : Type} (rows : List α) (g : α → K) :
    (rows.map (fun r => fmt3 (g r))).mapM (readDec (K := K)) = some (rows.map (fun r => ((roundEven (g r * 1000)).toNat : K) / 1000)) := by
  rw [mapM_eq_some_iff, List.map_map, List.map_map]
  apply List.map_congr_left
  intro r _
  exact readDec_fmt3 _

/-- C177. A valid segment list with non-negative times, names without separator, quote and end of line, whose name columns are read as text, can be saved and loaded: the segments
come back in order, with id and file, and with start and end at a whole number of milliseconds, each at most half a millisecond away. -/
theorem C177_segment_list (infer : List Str → Option (List Str)) (sep : Char) (hsep : GoodSep sep) (rows : List (Seg K)) (byFile : Bool)
    (hplain : ∀ s ∈ rows, Plain sep s.id ∧ Plain sep s.file.toList) (ht : ∀ s ∈ rows, 0 ≤ s.tbeg ∧ s.tbeg ≤ s.tend)
    (hid : infer (rows.map Seg.id) = some (rows.map Seg.id)) (hfile : infer (rows.map (fun s => s.file.toList)) = some (rows.map (fun s => s.file.toList))) :
    ∃ rows', segLoad infer sep (segSave sep rows) byFile = some ⟨rows', byFile⟩ ∧ rows'.length = rows.length ∧
      ∀ (i : Nat) (s s' : Seg K), rows[i]? = some s → rows'[i]? = some s' → s'.id = s.id ∧ s'.file = s.file ∧ NearestMs s.tbeg s'.tbeg ∧ NearestMs s.tend s'.tend := by
  obtain ⟨hd, hp, hn1, hn2⟩ := hsep
  refine ⟨rows.map (fun s => ⟨s.id, s.file, ((roundEven (s.tbeg * 1000)).toNat : K) / 1000, ((roundEven (s.tend * 1000)).toNat : K) / 1000⟩), ?_, by simp, ?_⟩
  · unfold segLoad segSave
    rw [read_table (by norm_num) hn1 hn2]
    · have c0 : colAt (rows.map (fun s => [s.id, s.file.toList, fmt3 s.tbeg, fmt3 s.tend])) 0 = rows.map Seg.id := by
        unfold colAt; rw [List.map_map]; rfl
      have c1 : colAt (rows.map (fun s => [s.id, s.file.toList, fmt3 s.tbeg, fmt3 s.tend])) 1 = rows.map (fun s => s.file.toList) := by
        unfold colAt; rw [List.map_map]; rfl
      have c2 : colAt (rows.map (fun s => [s.id, s.file.toList, fmt3 s.tbeg, fmt3 s.tend])) 2 = rows.map (fun s => fmt3 s.tbeg) := by
        unfold colAt; rw [List.map_map]; rfl
      have c3 : colAt (rows.map (fun s => [s.id, s.file.toList, fmt3 s.tbeg, fmt3 s.tend])) 3 = rows.map (fun s => fmt3 s.tend) := by
        unfold colAt; rw [List.map_map]; rfl
      simp only [Option.bind_eq_bind, Option.bind_some, c0, c1, c2, c3, hid, hfile, mapM_readDec]
      have e : (((rows.map Seg.id).zip (rows.map (fun s => s.file.toList))).zip
          ((rows.map (fun s => ((roundEven (s.tbeg * 1000)).toNat : K) / 1000)).zip (rows.map (fun s => ((roundEven (s.tend * 1000)).toNat : K) / 1000)))).map
          (fun p => (⟨p.1.1, String.ofList p.1.2, p.2.1, p.2.2⟩ : Seg K)) =
          rows.map (fun s => ⟨s.id, s.file, ((roundEven (s.tbeg * 1000)).toNat : K) / 1000, ((roundEven (s.tend * 1000)).toNat : K) / 1000⟩) := by
        clear hid hfile ht hplain
        induction rows with
        | nil => rfl
        | cons s rows ih =>
          simp only [List.map_cons, List.zip_cons_cons, String.ofList_toList, List.cons.injEq, true_and]
          exact ih (by unfold colAt; rw [List.map_map]; rfl) (by unfold colAt; rw [List.map_map]; rfl) (by unfold colAt; rw [List.map_map]; rfl) (by unfold colAt; rw [List.map_map]; rfl)
      rw [e, mkSegList, if_pos]
      rw [valid_iff]
      intro s' hs'
      obtain ⟨s, hs, rfl⟩ := List.mem_map.1 hs'
      exact ms_mono (ht s hs).2
    · intro r hr
      obtain ⟨s, hs, rfl⟩ := List.mem_map.1 hr
      refine ⟨rfl, ?_⟩
      intro f hf
      simp only [List.mem_cons, List.not_mem_nil, or_false] at hf
      rcases hf with rfl | rfl | rfl | rfl
      · exact (hplain s hs).1
      · exact (hplain s hs).2
      · exact plain_fmt3 hd hp _
      · exact plain_fmt3 hd hp _
  · intro i s s' h h'
    rw [List.getElem?_map, h] at h'
    obtain rfl := Option.some.inj h'
    have hs := List.mem_of_getElem? h
    exact ⟨rfl, rfl, nearest_ms (ht s hs).1, nearest_ms (le_trans (ht s hs).1 (ht s hs).2)⟩

/-- C177. If all times are whole milliseconds, the list loaded is the list saved. -/
theorem C177_segment_list_exact (infer : List Str → Option (List Str)) (sep : Char) (hsep : GoodSep sep) (rows : List (Seg K)) (byFile : Bool)
    (hplain : ∀ s ∈ rows, Plain sep s.id ∧ Plain sep s.file.toList) (ht : ∀ s ∈ rows, s.tbeg ≤ s.tend)
    (hms : ∀ s ∈ rows, (∃ m : ℕ, s.tbeg = (m : K) / 1000) ∧ ∃ m : ℕ, s.tend = (m : K) / 1000)
    (hid : infer (rows.map Seg.id) = some (rows.map Seg.id)) (hfile : infer (rows.map (fun s => s.file.toList)) = some (rows.map (fun s => s.file.toList))) :
    segLoad infer sep (segSave sep rows) byFile = some ⟨rows, byFile⟩ := by
  obtain ⟨rows', h1, h2, h3⟩ := C177_segment_list infer sep hsep rows byFile hplain
    (fun s hs => ⟨by obtain ⟨⟨m, hm⟩, _⟩ := hms s hs; rw [hm]; positivity, ht s hs⟩) hid hfile
  rw [h1]
  have : rows' = rows := by
    apply List.ext_getElem?
    intro i
    by_cases hi : i < rows.length
    · have e1 := List.getElem?_eq_getElem hi
      have e2 : rows'[i]? = some rows'[i] := List.getElem?_eq_getElem (by omega)
      obtain ⟨a, b, c, d⟩ := h3 i _ _ e1 e2
      obtain ⟨⟨m, hm⟩, ⟨m', hm'⟩⟩ := hms _ (List.mem_of_getElem? e1)
      have c' := c.exact m hm
      have d' := d.exact m' hm'
      rw [e1, e2]
      congr 1
      cases hx : rows'[i]; cases hy : rows[i]
      rw [hx] at a b c' d'; rw [hy] at a b c' d'
      simp_all
    · rw [List.getElem?_eq_none (by omega), List.getElem?_eq_none (by omega)]
  rw [this]

/-- C177. A diarisation with non-negative starts and durations, starts in order, plain names and name columns read as text can be saved and loaded: the rows come back in order, with type, file
and name, start and duration each a whole number of milliseconds at most half a millisecond away, so that the end moves by at most one millisecond. -/
theorem C177_rttm (infer : List Str → Option (List Str)) (sep : Char) (hsep : GoodSep sep) (hsep2 : ∀ f ∈ ["1", "<NA>"], sep ∉ f.toList) (rows : List (Row K)) (byFile : Bool)
    (hplain : ∀ r ∈ rows, Plain sep r.stype.toList ∧ Plain sep r.file.toList ∧ Plain sep r.name.toList) (ht : ∀ r ∈ rows, 0 ≤ r.tbeg ∧ 0 ≤ r.tdur)
    (hord : ∀ a b, Neighbours rows a b → a.file = b.file → a.tbeg ≤ b.tbeg)
    (h1 : infer (rows.map (fun r => r.stype.toList)) = some (rows.map (fun r => r.stype.toList)))
    (h2 : infer (rows.map (fun r => r.file.toList)) = some (rows.map (fun r => r.file.toList)))
    (h3 : infer (rows.map (fun r => r.name.toList)) = some (rows.map (fun r => r.name.toList))) :
    ∃ rows', rttmLoad infer sep (rttmSave sep rows) byFile = some ⟨rows', byFile⟩ ∧ rows'.length = rows.length ∧
      ∀ (i : Nat) (r r' : Row K), rows[i]? = some r → rows'[i]? = some r' → r'.stype = r.stype ∧ r'.file = r.file ∧ r'.name = r.name ∧
        NearestMs r.tbeg r'.tbeg ∧ NearestMs r.tdur r'.tdur ∧ |(r'.tbeg + r'.tdur) - (r.tbeg + r.tdur)| ≤ 1 / 1000 := by
  obtain ⟨hd, hp, hn1, hn2⟩ := hsep
  let rd : Row K → Row K := fun r => ⟨r.stype, r.file, r.name, ((roundEven (r.tbeg * 1000)).toNat : K) / 1000, ((roundEven (r.tdur * 1000)).toNat : K) / 1000⟩
  refine ⟨rows.map rd, ?_, by simp, ?_⟩
  · unfold rttmLoad rttmSave
    have hcol : ∀ (k : Nat) (g : Row K → Str), (∀ r : Row K, ([r.stype.toList, r.file.toList, ['1'], fmt3 r.tbeg, fmt3 r.tdur, "<NA>".toList, "<NA>".toList, r.name.toList,
        "<NA>".toList, "<NA>".toList]).getD k [] = g r) → colAt (rows.map (fun r : Row K => [r.stype.toList, r.file.toList, ['1'], fmt3 r.tbeg, fmt3 r.tdur, "<NA>".toList,
        "<NA>".toList, r.name.toList, "<NA>".toList, "<NA>".toList])) k = rows.map g := by
      intro k g hg
      unfold colAt
      rw [List.map_map]
      apply List.map_congr_left
      intro r _
      exact hg r
    rw [read_table (by norm_num) hn1 hn2]
    · simp only [Option.bind_eq_bind, Option.bind_some]
      rw [hcol 0 (fun r => r.stype.toList) (fun _ => rfl), hcol 1 (fun r => r.file.toList) (fun _ => rfl), hcol 3 (fun r => fmt3 r.tbeg) (fun _ => rfl),
        hcol 4 (fun r => fmt3 r.tdur) (fun _ => rfl), hcol 7 (fun r => r.name.toList) (fun _ => rfl), h1, h2, h3, mapM_readDec, mapM_readDec]
      simp only [Option.bind_some]
      have e : ((((rows.map (fun r => r.stype.toList)).zip (rows.map (fun r => r.file.toList))).zip (rows.map (fun r => r.name.toList))).zip
          ((rows.map (fun r => ((roundEven (r.tbeg * 1000)).toNat : K) / 1000)).zip (rows.map (fun r => ((roundEven (r.tdur * 1000)).toNat : K) / 1000)))).map
          (fun p => (⟨String.ofList p.1.1.1, String.ofList p.1.1.2, String.ofList p.1.2, p.2.1, p.2.2⟩ : Row K)) = rows.map rd := by
        clear h1 h2 h3 ht hplain hord hcol
        induction rows with
        | nil => rfl
        | cons s rows ih =>
          simp only [List.map_cons, List.zip_cons_cons, String.ofList_toList, List.cons.injEq]
          exact ⟨rfl, ih⟩
      rw [e]
      apply mkRttm_pos
      intro a b hab hf
      obtain ⟨l1, l2, hl⟩ := hab
      obtain ⟨m1, m2, rfl, rfl, hm2⟩ := List.map_eq_append_iff.1 hl
      obtain ⟨a', m3, rfl, rfl, hm3⟩ := List.map_eq_cons_iff.1 hm2
      obtain ⟨b', m4, rfl, rfl, rfl⟩ := List.map_eq_cons_iff.1 hm3
      exact ms_mono (hord a' b' ⟨m1, m4, rfl⟩ hf)
    · intro r hr
      obtain ⟨s, hs, rfl⟩ := List.mem_map.1 hr
      refine ⟨rfl, ?_⟩
      intro f hf
      obtain ⟨p1, p2, p3⟩ := hplain s hs
      have pna : Plain sep "<NA>".toList := ⟨hsep2 _ (by simp), by decide, by decide, by decide⟩
      have pone : Plain sep ['1'] := ⟨hsep2 "1" (by simp), by decide, by decide, by decide⟩
      simp only [List.mem_cons, List.not_mem_nil, or_false] at hf
      rcases hf with rfl | rfl | rfl | rfl | rfl | rfl | rfl | rfl | rfl | rfl
      · exact p1
      · exact p2
      · exact pone
      · exact plain_fmt3 hd hp _
      · exact plain_fmt3 hd hp _
      · exact pna
      · exact pna
      · exact p3
      · exact pna
      · exact pna
  · intro i r r' h h'
    rw [List.getElem?_map, h] at h'
    obtain rfl := Option.some.inj h'
    have hs := List.mem_of_getElem? h
    have n1 := nearest_ms (ht r hs).1
    have n2 := nearest_ms (ht r hs).2
    refine ⟨rfl, rfl, rfl, n1, n2, ?_⟩
    have a1 := abs_le.1 n1.2
    have a2 := abs_le.1 n2.2
    rw [abs_le]
    dsimp only [rd]
    constructor <;> linarith [a1.1, a1.2, a2.1, a2.2]

/-- C177. If all starts and durations are whole milliseconds, the diarisation loaded is the one saved. -/
theorem C177_rttm_exact (infer : List Str → Option (List Str)) (sep : Char) (hsep : GoodSep sep) (hsep2 : ∀ f ∈ ["1", "<NA>"], sep ∉ f.toList) (rows : List (Row K)) (byFile : Bool)
    (hplain : ∀ r ∈ rows, Plain sep r.stype.toList ∧ Plain sep r.file.toList ∧ Plain sep r.name.toList)
    (hms : ∀ r ∈ rows, (∃ m : ℕ, r.tbeg = (m : K) / 1000) ∧ ∃ m : ℕ, r.tdur = (m : K) / 1000)
    (hord : ∀ a b, Neighbours rows a b → a.file = b.file → a.tbeg ≤ b.tbeg)
    (h1 : infer (rows.map (fun r => r.stype.toList)) = some (rows.map (fun r => r.stype.toList)))
    (h2 : infer (rows.map (fun r => r.file.toList)) = some (rows.map (fun r => r.file.toList)))
    (h3 : infer (rows.map (fun r => r.name.toList)) = some (rows.map (fun r => r.name.toList))) :
    rttmLoad infer sep (rttmSave sep rows) byFile = some ⟨rows, byFile⟩ := by
  obtain ⟨rows', e, hl, h⟩ := C177_rttm infer sep hsep hsep2 rows byFile hplain (fun r hr => by
    obtain ⟨⟨m, hm⟩, ⟨m', hm'⟩⟩ := hms r hr
    rw [hm, hm']
    exact ⟨by positivity, by positivity⟩) hord h1 h2 h3
  rw [e]
  have : rows' = rows := by
    apply List.ext_getElem?
    intro i
    by_cases hi : i < rows.length
    · have e1 := List.getElem?_eq_getElem hi
      have e2 : rows'[i]? = some rows'[i] := List.getElem?_eq_getElem (by omega)
      obtain ⟨a, b, c, d, d2, _⟩ := h i _ _ e1 e2
      obtain ⟨⟨m, hm⟩, ⟨m', hm'⟩⟩ := hms _ (List.mem_of_getElem? e1)
      have c' := d.exact m hm
      have d' := d2.exact m' hm'
      rw [e1, e2]
      congr 1
      cases hx : rows'[i]; cases hy : rows[i]
      rw [hx] at a b c c' d'; rw [hy] at a b c c' d'
      simp_all
    · rw [List.getElem?_eq_none (by omega), List.getElem?_eq_none (by omega)]
  rw [this]

/-- C177 (a defect): two segments of which the second starts where the first ends overlap by a millisecond after being saved and loaded, because starts and durations are rounded on their own. -/
theorem C177_overlap_created : ∃ (a b a' b' : Row ℚ), a.tend = b.tbeg ∧ rttmLoad some ' ' (rttmSave ' ' [a, b]) true = some ⟨[a', b'], true⟩ ∧ b'.tbeg < a'.tend :=
  ⟨⟨"SPEAKER", "f", "x", 6 / 10000, 6 / 10000⟩, ⟨"SPEAKER", "f", "y", 12 / 10000, 1⟩, ⟨"SPEAKER", "f", "x", 1 / 1000, 1 / 1000⟩, ⟨"SPEAKER", "f", "y", 1 / 1000, 1⟩, by decide +kernel⟩

/-- a column of which every entry is a numeral is read as numbers. -/
def inferNumeral (col : List Str) : Option (List Str) := if col ≠ [] ∧ col.all isDecimal then none else some col

/-- cases: the text of a file; names that are numerals are not read back as texts; one that is not keeps the column. -/
example : String.ofList (segSave ' ' ([⟨"s1".toList, "f", 1 / 2, 5 / 4⟩, ⟨"s2".toList, "g", 12, 100 / 7⟩] : List (Seg ℚ))) = "s1 f 0.500 1.250\ns2 g 12.000 14.286\n" ∧
    segLoad (K := ℚ) inferNumeral ' ' "s1 f 0.500 1.250\n\ns2 g 12.000 14.286\n".toList true =
      some ⟨[⟨"s1".toList, "f", 1 / 2, 5 / 4⟩, ⟨"s2".toList, "g", 12, 14286 / 1000⟩], true⟩ ∧
    segLoad (K := ℚ) inferNumeral ' ' "s1 001 0.500 1.250\ns2 002 12.000 14.286\n".toList true = none ∧
    segLoad (K := ℚ) inferNumeral ' ' "s1 f 1.500 1.250\n".toList true = none ∧
    rttmSave ' ' ([⟨"SPEAKER", "f", "x", 1 / 3, 2⟩] : List (Row ℚ)) = "SPEAKER f 1 0.333 2.000 <NA> <NA> x <NA> <NA>\n".toList := by decide +kernel

end Hyp.Segments
