import Verif.Scp.Lemmas

/-! Property C04: SCP text file round trip. -/

namespace Hyp.Scp
open Hyp.Text

/-- The character constraints of the format (nothing else is assumed): no newline in keys and paths, the key
does not contain the separator, the path contains neither `[` nor the offset separator and does not end in
white space; ranges are (start, rows) with a non-negative end. -/
structure Savable (sep offSep : Char) (x : Scp Str Str) : Prop where
  keys : ∀ k ∈ x.key, sep ∉ k ∧ '\n' ∉ k ∧ '\r' ∉ k
  paths : ∀ p ∈ x.path, '[' ∉ p ∧ offSep ∉ p ∧ '\n' ∉ p ∧ '\r' ∉ p ∧ p ≠ [] ∧ ∀ c ∈ p.getLast?, isSpace c = false
  ranges : ∀ r, x.range = some r → ∀ e ∈ r, 0 ≤ (e.1 : Int) + e.2
  seps : sep ≠ '\n' ∧ sep ≠ '\r' ∧ offSep ≠ '\n' ∧ offSep ≠ '\r' ∧ offSep ≠ '['

theorem digit_ne {c : Char} (h : digitVal c = none) (n : Nat) : c ∉ printNat n := not_mem_printNat h

theorem printInt_nonneg {z : Int} (h : 0 ≤ z) : printInt z = printNat z.toNat := by
  unfold printInt
  rw [if_neg (by omega)]
  congr 1; omega

theorem mem_printInt {z : Int} {c : Char} (h : c ∈ printInt z) (h0 : 0 ≤ z) : ∃ d, d < 10 ∧ c = digitChar d := by
  rw [printInt_nonneg h0] at h; exact mem_printNat h

/-- shape of the range text -/
theorem rangeStr_spec {r : Nat × Int} (h : 0 ≤ (r.1 : Int) + r.2) :
    (r = (0, 0) ∧ rangeStr r = []) ∨
    (r ≠ (0, 0) ∧ ∃ t, rangeStr r = '[' :: t ++ [']'] ∧ parseRange (t ++ [']']) = some r ∧
      '\n' ∉ t ∧ '\r' ∉ t ∧ ']' ∉ t) := by
  obtain ⟨a, n⟩ := r
  unfold rangeStr
  by_cases h0 : a = 0 ∧ n = 0
  · left; simp [h0]
  · right
    refine ⟨by simpa using h0, ?_⟩
    rw [if_neg h0]
    have nd : ∀ c : Char, digitVal c = none → ∀ m, c ∉ printNat m := fun c hc m => not_mem_printNat hc
    by_cases hn : n = 0
    · simp only [hn, if_true]
      refine ⟨printNat a ++ [':'], by simp, ?_, ?_, ?_, ?_⟩
      · unfold parseRange
        rw [rstripChar_append (by simp [nd ']' (by decide)])]
        rw [show printNat a ++ [':'] = printNat a ++ ':' :: [] from rfl, splitOnce_append (nd ':' (by decide) _)]
        have hd : isDecimal (printNat a) = true := isDecimal_printNat a
        have he : isDecimal ([] : Str) = false := rfl
        simp [hd, he]
      · simp [nd '\n' (by decide)]
      · simp [nd '\r' (by decide)]
      · simp [nd ']' (by decide)]
    · simp only [hn, if_false]
      simp only at h
      rw [printInt_nonneg h]
      refine ⟨printNat a ++ ':' :: printNat ((a : Int) + n).toNat, by simp, ?_, ?_, ?_, ?_⟩
      · unfold parseRange
        rw [rstripChar_append (by simp [nd ']' (by decide)])]
        rw [splitOnce_append (nd ':' (by decide) _)]
        simp; omega
      · simp [nd '\n' (by decide)]
      · simp [nd '\r' (by decide)]
      · simp [nd ']' (by decide)]

theorem fields2_no {sep : Char} {s : Str} (h : sep ∉ s) : fields2 sep s = (s, none) := by
  unfold fields2; rw [splitOnce_none h]

theorem fields2_yes {sep : Char} {a b : Str} (h : sep ∉ a) : fields2 sep (a ++ sep :: b) = (a, some b) := by
  unfold fields2; rw [splitOnce_append h]

theorem fields2_range {base : Str} (hb : '[' ∉ base) {r : Nat × Int} (h : 0 ≤ (r.1 : Int) + r.2) :
    ∃ o : Option Str, fields2 '[' (base ++ rangeStr r) = (base, o) ∧
      (o.isSome ↔ r ≠ (0, 0)) ∧
      parseRangeOpt (base, o) = some r := by
  rcases rangeStr_spec h with ⟨h1, h2⟩ | ⟨h1, t, h2, h3, _⟩
  · refine ⟨none, ?_, by simp [h1], by simp [h1, parseRangeOpt]⟩
    rw [h2, List.append_nil, fields2_no hb]
  · refine ⟨some (t ++ [']']), ?_, by simp [h1], h3⟩
    rw [h2]
    have : base ++ ('[' :: t ++ [']']) = base ++ '[' :: (t ++ [']']) := by simp
    rw [this, fields2_yes hb]

theorem rangeStr_clean {r : Nat × Int} (h : 0 ≤ (r.1 : Int) + r.2) :
    '\n' ∉ rangeStr r ∧ '\r' ∉ rangeStr r ∧ ∀ c ∈ (rangeStr r).getLast?, isSpace c = false := by
  rcases rangeStr_spec h with ⟨_, h2⟩ | ⟨_, t, h2, _, h4, h5, _⟩
  · rw [h2]; simp
  · rw [h2]
    refine ⟨by simp [h4], by simp [h5], ?_⟩
    intro c hc
    rw [List.getLast?_append] at hc
    simp at hc; rw [← hc]; decide

/-- one row as written by `save`. -/
structure Row where
  k : Str
  p : Str
  o : Option Nat
  r : Nat × Int

def Row.base (offSep : Char) (e : Row) : Str :=
  match e.o with
  | none => e.p
  | some o => e.p ++ offSep :: printNat o

def Row.script (offSep : Char) (e : Row) : Str := e.base offSep ++ rangeStr e.r

def Row.line (sep offSep : Char) (e : Row) : Str := e.k ++ sep :: e.script offSep

structure Row.OK (sep offSep : Char) (e : Row) : Prop where
  k : sep ∉ e.k ∧ '\n' ∉ e.k ∧ '\r' ∉ e.k
  p : '[' ∉ e.p ∧ offSep ∉ e.p ∧ '\n' ∉ e.p ∧ '\r' ∉ e.p ∧ e.p ≠ [] ∧ ∀ c ∈ e.p.getLast?, isSpace c = false
  r : 0 ≤ (e.r.1 : Int) + e.r.2
  seps : sep ≠ '\n' ∧ sep ≠ '\r' ∧ offSep ≠ '\n' ∧ offSep ≠ '\r' ∧ offSep ≠ '['

theorem Row.base_ok {sep offSep : Char} {e : Row} (h : e.OK sep offSep) :
    '[' ∉ e.base offSep ∧ '\n' ∉ e.base offSep ∧ '\r' ∉ e.base offSep ∧ e.base offSep ≠ [] ∧
    (∀ c ∈ (e.base offSep).getLast?, isSpace c = false) ∧
    fields2 offSep (e.base offSep) = (e.p, e.o.map printNat) := by
  have nd : ∀ c : Char, digitVal c = none → ∀ m, c ∉ printNat m := fun c hc m => not_mem_printNat hc
  obtain ⟨p1, p2, p3, p4, p5, p6⟩ := h.p
  obtain ⟨s1, s2, s3, s4, s5⟩ := h.seps
  unfold Row.base
  cases ho : e.o with
  | none => exact ⟨p1, p3, p4, p5, p6, fields2_no p2⟩
  | some o =>
    refine ⟨?_, ?_, ?_, by simp, ?_, fields2_yes p2⟩
    · simp [p1, Ne.symm s5, nd '[' (by decide)]
    · simp [p3, Ne.symm s3, nd '\n' (by decide)]
    · simp [p4, Ne.symm s4, nd '\r' (by decide)]
    · intro c hc
      simp only [List.getLast?_append, List.getLast?_cons] at hc
      have hne := printNat_ne_nil o
      obtain ⟨l, hl⟩ := Option.ne_none_iff_exists'.1 (fun hh => hne (List.getLast?_eq_none_iff.1 hh))
      rw [hl] at hc
      simp at hc
      have : c ∈ printNat o := by rw [← hc]; exact List.mem_of_getLast? hl
      obtain ⟨d, hd, rfl⟩ := mem_printNat this
      exact isSpace_digitChar hd

theorem Row.line_ok {sep offSep : Char} {e : Row} (h : e.OK sep offSep) :
    '\n' ∉ e.line sep offSep ∧ '\r' ∉ e.line sep offSep ∧
    splitOnce sep (rstrip (e.line sep offSep ++ ['\n'])) = some (e.k, e.script offSep) := by
  obtain ⟨b1, b2, b3, b4, b5, b6⟩ := Row.base_ok h
  obtain ⟨r1, r2, r3⟩ := rangeStr_clean h.r
  obtain ⟨k1, k2, k3⟩ := h.k
  obtain ⟨s1, s2, _⟩ := h.seps
  refine ⟨?_, ?_, ?_⟩
  · unfold Row.line Row.script; simp [k2, Ne.symm s1, b2, r1]
  · unfold Row.line Row.script; simp [k3, Ne.symm s2, b3, r2]
  · rw [rstrip_line]
    · unfold Row.line; exact splitOnce_append k1
    · intro c hc
      unfold Row.line Row.script at hc
      have : e.k ++ sep :: (e.base offSep ++ rangeStr e.r) = (e.k ++ [sep]) ++ (e.base offSep ++ rangeStr e.r) := by
        simp
      rw [this, List.getLast?_append] at hc
      rw [List.getLast?_append] at hc
      cases hr : (rangeStr e.r).getLast? with
      | some a => rw [hr] at hc; simp at hc; subst hc; exact r3 a (by simp [hr])
      | none =>
        rw [hr] at hc
        obtain ⟨l, hl⟩ := Option.ne_none_iff_exists'.1 (fun hh => b4 (List.getLast?_eq_none_iff.1 hh))
        rw [hl] at hc; simp at hc; subst hc; exact b5 l (by simp [hl])

/-- `load` of a file made of such rows -/
theorem load_rows {sep offSep : Char} {rows : List Row} (hne : rows ≠ []) (hok : ∀ e ∈ rows, e.OK sep offSep)
    (hoff : (∀ e ∈ rows, e.o = none) ∨ ∀ e ∈ rows, e.o ≠ none) :
    load sep offSep (rows.flatMap (fun e => e.line sep offSep ++ ['\n'])) =
      create (rows.map (·.k)) (rows.map (·.p))
        (if ∀ e ∈ rows, e.o = none then none else some (rows.filterMap (·.o)))
        (if ∀ e ∈ rows, e.r = (0, 0) then none else some (rows.map (·.r))) := by
  unfold load
  have hl : fileLines (rows.flatMap (fun e => e.line sep offSep ++ ['\n'])) =
      (rows.map (fun e => e.line sep offSep)).map (fun l => l ++ ['\n']) := by
    rw [← fileLines_join]
    · rw [List.flatMap_map]
    · intro l hl
      obtain ⟨e, he, rfl⟩ := List.mem_map.1 hl
      have := Row.line_ok (hok e he)
      exact ⟨this.1, this.2.1⟩
  rw [hl]
  have hf : ((rows.map (fun e => e.line sep offSep)).map (fun l => l ++ ['\n'])).mapM
      (fun l => splitOnce sep (rstrip l)) = some (rows.map (fun e => (e.k, e.script offSep))) := by
    rw [mapM_eq_some_iff, List.map_map, List.map_map, List.map_map]
    apply List.map_congr_left
    intro e he
    exact (Row.line_ok (hok e he)).2.2
  rw [hf]
  simp only [Option.bind_eq_bind, Option.bind_some, List.map_map]
  have hpar : parseScript offSep (rows.map ((fun x : Str × Str => x.2) ∘ fun e : Row => (e.k, e.script offSep))) =
      some (rows.map (·.p), (if ∀ e ∈ rows, e.o = none then none else some (rows.filterMap (·.o))),
        (if ∀ e ∈ rows, e.r = (0, 0) then none else some (rows.map (·.r)))) := by
    unfold parseScript
    have hfr : ∀ e ∈ rows, (fields2 '[' (e.script offSep)).1 = e.base offSep ∧
        ((fields2 '[' (e.script offSep)).2.isSome ↔ e.r ≠ (0, 0)) ∧
        parseRangeOpt (fields2 '[' (e.script offSep)) = some e.r := by
      intro e he
      have hb := Row.base_ok (hok e he)
      obtain ⟨o, h1, h2, h3⟩ := fields2_range hb.1 (hok e he).r
      unfold Row.script
      rw [h1]; exact ⟨rfl, h2, h3⟩
    have hfo : ((rows.map ((fun x : Str × Str => x.2) ∘ fun e : Row => (e.k, e.script offSep))).map (fields2 '[')).map
        (fun f => fields2 offSep f.1) = rows.map (fun e => (e.p, e.o.map printNat)) := by
      rw [List.map_map, List.map_map]
      apply List.map_congr_left
      intro e he
      simp only [Function.comp]
      rw [(hfr e he).1]; exact (Row.base_ok (hok e he)).2.2.2.2.2
    simp only []
    rw [hfo]
    have hoffs : parseOffsets (rows.map (fun e => (e.p, e.o.map printNat))) =
        some (if ∀ e ∈ rows, e.o = none then none else some (rows.filterMap (·.o))) := by
      cases rows with
      | nil => exact absurd rfl hne
      | cons e es =>
        simp only [List.map_cons, parseOffsets, Option.isSome_map]
        rcases hoff with hoff | hoff
        · rw [if_pos hoff, hoff e (by simp)]; simp
        · have he := hoff e (by simp)
          have hnn : ¬ ∀ e' ∈ e :: es, e'.o = none := fun hh => he (hh e (by simp))
          have : e.o.isSome = true := Option.isSome_iff_ne_none.2 he
          rw [if_neg hnn, this, if_pos rfl]
          have : ((e.p, e.o.map printNat) :: es.map (fun e => (e.p, e.o.map printNat))).mapM
              (fun f : Str × Option Str => f.2.bind parseNat) = some ((e :: es).filterMap (·.o)) := by
            rw [← List.map_cons (f := fun e : Row => (e.p, e.o.map printNat))]
            rw [mapM_eq_some_iff]
            generalize e :: es = l at hoff
            clear he this
            induction l with
            | nil => rfl
            | cons a as ih =>
              have ha := hoff a (by simp)
              obtain ⟨o, ho⟩ := Option.ne_none_iff_exists'.1 ha
              simp only [List.map_cons]
              rw [ih (fun e he => hoff e (by simp [he]))]
              rw [List.filterMap_cons_some ho]
              simp [ho]
          rw [this]; rfl
    have hrng : parseRanges ((rows.map ((fun x : Str × Str => x.2) ∘ fun e : Row => (e.k, e.script offSep))).map
        (fields2 '[')) = some (if ∀ e ∈ rows, e.r = (0, 0) then none else some (rows.map (·.r))) := by
      unfold parseRanges
      by_cases h : ∀ e ∈ rows, e.r = (0, 0)
      · rw [if_pos h, if_neg]
        simp only [List.any_map, List.any_eq_true, Function.comp]
        rintro ⟨e, he, hh⟩
        exact (hfr e he).2.1.1 hh (h e he)
      · rw [if_neg h, if_pos]
        · have : ((rows.map ((fun x : Str × Str => x.2) ∘ fun e : Row => (e.k, e.script offSep))).map (fields2 '[')).mapM
              parseRangeOpt =
              some (rows.map (·.r)) := by
            rw [mapM_eq_some_iff, List.map_map, List.map_map, List.map_map]
            apply List.map_congr_left
            intro e he
            exact (hfr e he).2.2
          rw [this]; rfl
        · push_neg at h
          obtain ⟨e, he, hh⟩ := h
          simp only [List.any_map, List.any_eq_true, Function.comp]
          exact ⟨e, he, (hfr e he).2.1.2 hh⟩
    rw [hoffs, hrng]
    simp [List.map_map, Function.comp_def]
  rw [hpar]
  rfl

def rangesOf (key : List Str) : Option (List (Nat × Int)) → List (Nat × Int)
  | none => key.map (fun _ => (0, 0))
  | some r => r

/-- the rows of a script list -/
theorem save_rows {sep offSep : Char} {x : Scp Str Str} (hx : x.WF) :
    ∃ rows : List Row, x.save sep offSep = rows.flatMap (fun e => e.line sep offSep ++ ['\n']) ∧
      rows.map (·.k) = x.key ∧ rows.map (·.p) = x.path ∧
      ((x.offset = none ∧ ∀ e ∈ rows, e.o = none) ∨ (∃ o, x.offset = some o ∧ rows.map (·.o) = o.map some)) ∧
      ((x.range = none ∧ ∀ e ∈ rows, e.r = (0, 0)) ∨ (∃ r, x.range = some r ∧ rows.map (·.r) = r)) := by
  obtain ⟨key, path, offset, range, cache⟩ := x
  obtain ⟨hp, ho, hr⟩ := hx
  simp only at hp ho hr
  -- the ranges as a plain column
  obtain ⟨rs, hrsdef⟩ : ∃ rs, rs = rangesOf key range := ⟨_, rfl⟩
  have hrs : rs.length = key.length := by
    subst hrsdef
    cases range with
    | none => simp [rangesOf]
    | some r => exact (hr r rfl).1
  clear hr
  have hrcase : ∀ rows : List Row, rows.map (·.r) = rs →
      ((range = none ∧ ∀ e ∈ rows, e.r = (0, 0)) ∨ (∃ r, range = some r ∧ rows.map (·.r) = r)) := by
    intro rows h
    subst hrsdef
    cases range with
    | none =>
      left; refine ⟨rfl, ?_⟩
      intro e he
      have : e.r ∈ rangesOf key none := by rw [← h]; exact List.mem_map_of_mem he
      simp only [rangesOf, List.mem_map] at this
      obtain ⟨_, _, h⟩ := this; exact h.symm
    | some r => right; exact ⟨r, rfl, h⟩
  have hrstr : rangeTexts key range = rs.map rangeStr := by
    subst hrsdef
    cases range with
    | none => simp only [rangesOf, rangeTexts, List.map_map]; apply List.map_congr_left; intro k _; rfl
    | some r => rfl
  cases offset with
  | none =>
    refine ⟨(key.zip (path.zip rs)).map (fun e => ⟨e.1, e.2.1, none, e.2.2⟩), ?_, ?_, ?_, Or.inl ⟨rfl, ?_⟩,
      hrcase _ ?_⟩
    · simp only [Scp.save, hrstr, List.flatMap_map, Row.line, Row.script, Row.base]
      rw [List.zip_map_right, List.zip_map_right, List.flatMap_map]
      simp [Function.comp_def]
    · rw [List.map_map]; exact List.map_fst_zip (by simp; omega)
    · rw [List.map_map]
      have : (key.zip (path.zip rs)).map ((fun e : Row => e.p) ∘ fun e => ⟨e.1, e.2.1, none, e.2.2⟩) =
          ((key.zip (path.zip rs)).map Prod.snd).map Prod.fst := by rw [List.map_map]; rfl
      rw [this, List.map_snd_zip (by simp; omega), List.map_fst_zip (by omega)]
    · intro e he
      obtain ⟨_, _, rfl⟩ := List.mem_map.1 he; rfl
    · rw [List.map_map]
      have : (key.zip (path.zip rs)).map ((fun e : Row => e.r) ∘ fun e => ⟨e.1, e.2.1, none, e.2.2⟩) =
          ((key.zip (path.zip rs)).map Prod.snd).map Prod.snd := by rw [List.map_map]; rfl
      rw [this, List.map_snd_zip (by simp; omega), List.map_snd_zip (by omega)]
  | some os =>
    have hol := ho os rfl
    refine ⟨(key.zip (path.zip (os.zip rs))).map (fun e => ⟨e.1, e.2.1, some e.2.2.1, e.2.2.2⟩), ?_, ?_, ?_,
      Or.inr ⟨os, rfl, ?_⟩, hrcase _ ?_⟩
    · simp only [Scp.save, hrstr, List.flatMap_map, Row.line, Row.script, Row.base]
      rw [List.zip_map_right, List.zip_map_right, List.zip_map_right, List.flatMap_map]
      simp [Function.comp_def]
    · rw [List.map_map]; exact List.map_fst_zip (by simp; omega)
    · rw [List.map_map]
      have : (key.zip (path.zip (os.zip rs))).map ((fun e : Row => e.p) ∘ fun e => ⟨e.1, e.2.1, some e.2.2.1, e.2.2.2⟩) =
          ((key.zip (path.zip (os.zip rs))).map Prod.snd).map Prod.fst := by rw [List.map_map]; rfl
      rw [this, List.map_snd_zip (by simp; omega), List.map_fst_zip (by simp; omega)]
    · rw [List.map_map]
      have : (key.zip (path.zip (os.zip rs))).map ((fun e : Row => e.o) ∘ fun e => ⟨e.1, e.2.1, some e.2.2.1, e.2.2.2⟩) =
          ((((key.zip (path.zip (os.zip rs))).map Prod.snd).map Prod.snd).map Prod.fst).map some := by
        simp only [List.map_map]; rfl
      rw [this, List.map_snd_zip (by simp; omega), List.map_snd_zip (by simp; omega), List.map_fst_zip (by omega)]
    · rw [List.map_map]
      have : (key.zip (path.zip (os.zip rs))).map ((fun e : Row => e.r) ∘ fun e => ⟨e.1, e.2.1, some e.2.2.1, e.2.2.2⟩) =
          (((key.zip (path.zip (os.zip rs))).map Prod.snd).map Prod.snd).map Prod.snd := by
        simp only [List.map_map]; rfl
      rw [this, List.map_snd_zip (by simp; omega), List.map_snd_zip (by simp; omega), List.map_snd_zip (by omega)]

/-- **C04.** Loading the file written by `save` succeeds and gives back keys, paths, offsets and ranges; the
only normalisation is that a range column with only (0,0) (= whole file) comes back as no ranges. -/
theorem C04_scp_round_trip (sep offSep : Char) (x : Scp Str Str) (hx : x.WF) (hne : x.key ≠ [])
    (hs : Savable sep offSep x) :
    ∃ y, load sep offSep (x.save sep offSep) = some y ∧ y.key = x.key ∧ y.path = x.path ∧ y.offset = x.offset ∧
      y.range = (if ∀ r, x.range = some r → ∀ e ∈ r, e = (0, 0) then none else x.range) := by
  obtain ⟨rows, hsave, hk, hp, ho, hr⟩ := save_rows (sep := sep) (offSep := offSep) hx
  have hrows : rows ≠ [] := by rintro rfl; simp at hk; exact hne hk
  have hrx : ∀ e ∈ rows, 0 ≤ (e.r.1 : Int) + e.r.2 := by
    intro e he
    rcases hr with ⟨_, h⟩ | ⟨r, h1, h2⟩
    · rw [h e he]; simp
    · exact hs.ranges r h1 e.r (by rw [← h2]; exact List.mem_map_of_mem he)
  have hok : ∀ e ∈ rows, e.OK sep offSep := by
    intro e he
    refine ⟨hs.keys e.k (by rw [← hk]; exact List.mem_map_of_mem he),
      hs.paths e.p (by rw [← hp]; exact List.mem_map_of_mem he), hrx e he, hs.seps⟩
  have hoff : (∀ e ∈ rows, e.o = none) ∨ ∀ e ∈ rows, e.o ≠ none := by
    rcases ho with ⟨_, h⟩ | ⟨o, _, h⟩
    · exact Or.inl h
    · right
      intro e he hn
      have : e.o ∈ o.map some := by rw [← h]; exact List.mem_map_of_mem he
      rw [hn] at this; simp at this
  rw [hsave, load_rows hrows hok hoff, hk, hp]
  have ho' : (if ∀ e ∈ rows, e.o = none then none else some (rows.filterMap (·.o))) = x.offset := by
    rcases ho with ⟨h1, h⟩ | ⟨o, h1, h⟩
    · rw [if_pos h, h1]
    · have hnn : ¬ ∀ e ∈ rows, e.o = none := by
        intro hh
        cases rows with
        | nil => exact hrows rfl
        | cons e es =>
          have h2 := hh e (by simp)
          cases o with
          | nil => simp at h
          | cons a as => simp [h2] at h
      rw [if_neg hnn, h1]
      congr 1
      have : rows.filterMap (·.o) = (rows.map (·.o)).filterMap id := by rw [List.filterMap_map]; rfl
      rw [this, h]; simp
  rw [ho']
  have hr' : (if ∀ e ∈ rows, e.r = (0, 0) then none else some (rows.map (·.r))) =
      (if ∀ r, x.range = some r → ∀ e ∈ r, e = (0, 0) then none else x.range) := by
    rcases hr with ⟨h1, h⟩ | ⟨r, h1, h⟩
    · rw [if_pos h, if_pos (by simp [h1])]
    · have : (∀ e ∈ rows, e.r = (0, 0)) ↔ ∀ r, x.range = some r → ∀ e ∈ r, e = (0, 0) := by
        rw [h1]
        constructor
        · intro hh r' hr' e he
          have hr' := Option.some.inj hr'
          rw [← hr', ← h, List.mem_map] at he
          obtain ⟨e', he', rfl⟩ := he
          exact hh e' he'
        · intro hh e he
          exact hh r rfl e.r (by rw [← h]; exact List.mem_map_of_mem he)
      by_cases hc : ∀ e ∈ rows, e.r = (0, 0)
      · rw [if_pos hc, if_pos (this.1 hc)]
      · rw [if_neg hc, if_neg (fun hh => hc (this.2 hh)), h1, h]
  rw [hr']
  refine ⟨_, create_iff.2 ⟨hx.path, hx.offset, ?_, rfl⟩, rfl, rfl, rfl, ?_⟩
  · intro l hl hne
    split at hl
    · simp at hl
    · exact (hx.range l hl).1
  · simp only
    split
    · rfl
    · split
      · rename_i h; exact absurd rfl (hx.range [] h).2
      · rfl

/-- The empty list does not survive the round trip: `load` of an empty file raises (IndexError on
`file_offset[0]`), for every separator. -/
theorem C04_empty_file_raises (sep offSep : Char) : load sep offSep [] = none := by
  unfold load
  simp [fileLines, universalNewlines, linesKeep, parseScript, parseOffsets]

/-- a list with offsets and ranges meeting the hypotheses -/
def textDemo : Scp Str Str :=
  ⟨["utt1".toList, "utt2".toList], ["a b/c.ark".toList, "d.ark".toList], some [5, 1234],
   some [(0, 0), (3, 7)], none⟩

example : textDemo.WF ∧ textDemo.key ≠ [] ∧ Savable ' ' ':' textDemo := by
  refine ⟨⟨rfl, by simp [textDemo], by simp [textDemo]⟩, by simp [textDemo], ⟨?_, ?_, ?_, by decide⟩⟩
  · simp [textDemo]
  · simp [textDemo]; decide
  · simp only [textDemo, Option.some.injEq]
    rintro r rfl e he
    simp only [List.mem_cons, List.not_mem_nil, or_false] at he
    rcases he with rfl | rfl <;> decide

end Hyp.Scp
