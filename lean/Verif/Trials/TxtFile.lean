import Verif.Trials.MoreProps
import Verif.TextLemmas
import Verif.Round
import Mathlib.Data.List.Lex
import Mathlib.Data.Char
import Mathlib.Tactic.Ring
import Mathlib.Tactic.FieldSimp

/-! The text files of TrialNdx, TrialKey and TrialScores (`save_txt`, `load_txt`), character by character. Names are strings ordered by code points. -/

namespace Hyp.Trials
open Hyp.Text

/-- trial_ndx.py:94-103: the file written. -/
def ndxText (recs : List (Str × Str)) : Str := recs.flatMap (fun r => (r.1 ++ ' ' :: r.2) ++ ['\n'])

/-- trial_ndx.py:152-155: `fields = [line.split() for line in f]`, first and second field of each; a line with fewer raises. -/
def ndxParse (content : Str) : Option (List (Str × Str)) :=
  (fileLines content).mapM (fun l => match splitWs l with | a :: b :: _ => some (a, b) | _ => none)

/-- trial_ndx.py `save_txt`. -/
def Ndx.saveTxt (x : Ndx Str) : Option Str := x.saveRecords.map ndxText
/-- trial_ndx.py `load_txt`. -/
def Ndx.loadTxt (content : Str) : Option (Ndx Str) := (ndxParse content).bind Ndx.loadRecords

/-- trial_key.py:138-146: the label written. -/
def label (b : Bool) : Str := if b then "target".toList else "nontarget".toList

/-- trial_key.py:132-146: the file written. -/
def keyText (recs : List (Str × Str × Bool)) : Str := recs.flatMap (fun r => (r.1 ++ ' ' :: r.2.1 ++ ' ' :: label r.2.2) ++ ['\n'])

/-- trial_key.py:220-224: third field compared with 'target'. -/
def keyParse (content : Str) : Option (List (Str × Str × Bool)) :=
  (fileLines content).mapM (fun l => match splitWs l with | a :: b :: c :: _ => some (a, b, decide (c = "target".toList)) | _ => none)

/-- trial_key.py `save_txt`. -/
def Key.saveTxt (x : Key Str) : Option Str := x.saveRecords.map keyText
/-- trial_key.py `load_txt`. -/
def Key.loadTxt (content : Str) : Option (Key Str) := (keyParse content).bind Key.loadRecords

/-- the six decimals of `'%f'`. -/
def pad6 (n : Nat) : Str := [digitChar (n / 100000 % 10), digitChar (n / 10000 % 10), digitChar (n / 1000 % 10), digitChar (n / 100 % 10), digitChar (n / 10 % 10), digitChar (n % 10)]

/-- `'%f' % v` for a finite number (C library; the exact value is rounded to the nearest multiple of 10^-6, ties to even). -/
def printF (v : ℚ) : Str :=
  let n := (roundEven (|v| * 1000000)).natAbs
  (if v < 0 then ['-'] else []) ++ (printNat (n / 1000000) ++ '.' :: pad6 (n % 1000000))

/-- `float(s)` for numerals `[-]digits.digits` (library; exponents, `inf`, `nan` and other forms are not modelled). -/
def parseF (s : Str) : Option ℚ :=
  let (neg, t) := match s with | '-' :: t => (true, t) | _ => (false, s)
  match splitOnce '.' t with
  | none => none
  | some (a, b) => do
    let x ← parseNat a
    let y ← parseNat b
    let v : ℚ := x + y / 10 ^ b.length
    pure (if neg then -v else v)

/-- trial_scores.py:99-110: the file written. -/
def scoreText (recs : List (Str × Str × ℚ)) : Str := recs.flatMap (fun r => (r.1 ++ ' ' :: r.2.1 ++ ' ' :: printF r.2.2) ++ ['\n'])

/-- trial_scores.py:160-163, 175: fields of each line; the third is converted to a float by the assignment to the array. -/
def scoreParse (content : Str) : Option (List (Str × Str × ℚ)) :=
  (fileLines content).mapM (fun l => match splitWs l with | a :: b :: c :: _ => (parseF c).map (fun v => (a, b, v)) | _ => none)

/-- trial_scores.py `save_txt`. -/
def Scores.saveTxt (x : Scores Str ℚ) : Option Str := x.saveRecords.map scoreText
/-- trial_scores.py `load_txt`. -/
def Scores.loadTxt (content : Str) : Option (Scores Str ℚ) := (scoreParse content).bind Scores.loadRecords

/-- a name that can be a field: not empty, no white space. -/
def Word (s : Str) : Prop := s ≠ [] ∧ ∀ c ∈ s, isSpace c = false

theorem word_noNl {s : Str} (h : ∀ c ∈ s, isSpace c = false) : '\n' ∉ s ∧ '\r' ∉ s := by
  constructor <;> intro hc <;> have := h _ hc <;> revert this <;> decide

theorem parse_lines {β : Type} (recs : List β) (line : β → Str) (f : Str → Option β) (hl : ∀ r ∈ recs, '\n' ∉ line r ∧ '\r' ∉ line r)
    (hf : ∀ r ∈ recs, f (line r ++ ['\n']) = some r) : (fileLines (recs.flatMap (fun r => line r ++ ['\n']))).mapM f = some recs := by
  have e : recs.flatMap (fun r => line r ++ ['\n']) = (recs.map line).flatMap (fun l => l ++ ['\n']) := by rw [List.flatMap_map]
  rw [e, fileLines_join (by simpa using hl), mapM_eq_some_iff, List.map_map, List.map_map]
  apply List.map_congr_left
  intro r hr
  exact hf r hr

theorem split2 {a b : Str} (ha : Word a) (hb : Word b) : splitWs (a ++ ' ' :: b ++ ['\n']) = [a, b] := by
  have e : a ++ ' ' :: b ++ ['\n'] = a ++ ' ' :: (b ++ '\n' :: []) := by simp
  rw [e, splitWs_cons (by decide) ha.1 ha.2, splitWs_cons (by decide) hb.1 hb.2]
  rfl

theorem split3 {a b c : Str} (ha : Word a) (hb : Word b) (hc : Word c) : splitWs (a ++ ' ' :: b ++ ' ' :: c ++ ['\n']) = [a, b, c] := by
  have e : a ++ ' ' :: b ++ ' ' :: c ++ ['\n'] = a ++ ' ' :: (b ++ ' ' :: (c ++ '\n' :: [])) := by simp
  rw [e, splitWs_cons (by decide) ha.1 ha.2, splitWs_cons (by decide) hb.1 hb.2, splitWs_cons (by decide) hc.1 hc.2]
  rfl

theorem noNl2 {a b : Str} (ha : Word a) (hb : Word b) : '\n' ∉ a ++ ' ' :: b ∧ '\r' ∉ a ++ ' ' :: b := by
  have h1 := word_noNl ha.2
  have h2 := word_noNl hb.2
  simp [h1.1, h1.2, h2.1, h2.2]

theorem noNl3 {a b c : Str} (ha : Word a) (hb : Word b) (hc : Word c) : '\n' ∉ a ++ ' ' :: b ++ ' ' :: c ∧ '\r' ∉ a ++ ' ' :: b ++ ' ' :: c := by
  have h1 := word_noNl ha.2
  have h2 := word_noNl hb.2
  have h3 := word_noNl hc.2
  simp [h1.1, h1.2, h2.1, h2.2, h3.1, h3.2]

theorem ndx_parse_text {recs : List (Str × Str)} (h : ∀ r ∈ recs, Word r.1 ∧ Word r.2) : ndxParse (ndxText recs) = some recs := by
  unfold ndxParse ndxText
  apply parse_lines recs (fun r => r.1 ++ ' ' :: r.2)
  · intro r hr; exact noNl2 (h r hr).1 (h r hr).2
  · intro r hr
    rw [split2 (h r hr).1 (h r hr).2]

theorem word_label (b : Bool) : Word (label b) := by
  cases b <;> exact ⟨by decide, by decide⟩

theorem key_parse_text {recs : List (Str × Str × Bool)} (h : ∀ r ∈ recs, Word r.1 ∧ Word r.2.1) : keyParse (keyText recs) = some recs := by
  unfold keyParse keyText
  apply parse_lines recs (fun r => r.1 ++ ' ' :: r.2.1 ++ ' ' :: label r.2.2)
  · intro r hr; exact noNl3 (h r hr).1 (h r hr).2 (word_label _)
  · rintro ⟨a, b, c⟩ hr
    rw [split3 (h _ hr).1 (h _ hr).2 (word_label _)]
    cases c <;> rfl

/-- **C11 (file).** For every index whose names are words, the file written by `save_txt` is read back by `load_txt` into an index with exactly the same trials and
sorted names. -/
theorem C11_file_round_trip (x : Ndx Str) (hx : x.WF) (hm : ∀ m ∈ x.models, Word m) (hs : ∀ s ∈ x.segs, Word s) :
    ∃ content r, x.saveTxt = some content ∧ Ndx.loadTxt content = some r ∧ r.WF ∧ r.models.Pairwise (· < ·) ∧ r.segs.Pairwise (· < ·) ∧
      ∀ m s, r.IsTrial m s ↔ x.IsTrial m s := by
  obtain ⟨recs, h1, h2⟩ := Ndx.saveRecords_spec x hx
  obtain ⟨r, r1, r2, r3, r4, r5, _, _⟩ := Ndx.loadRecords_spec recs
  refine ⟨ndxText recs, r, by simp [Ndx.saveTxt, h1], ?_, r2, r3, r4, fun m s => by rw [r5, h2]⟩
  unfold Ndx.loadTxt
  rw [ndx_parse_text, Option.bind_some, r1]
  rintro ⟨m, s⟩ hr
  obtain ⟨a, b, _⟩ := (trueAt_iff hx.models hx.segs).1 ((h2 m s).1 hr)
  exact ⟨hm m a, hs s b⟩

/-- **C61 (file).** The same for keys: target and nontarget trials are read back. -/
theorem C61_file_round_trip (x : Key Str) (hx : x.WF) (hm : ∀ m ∈ x.models, Word m) (hs : ∀ s ∈ x.segs, Word s) :
    ∃ content r, x.saveTxt = some content ∧ Key.loadTxt content = some r ∧ r.WF ∧ r.models.Pairwise (· < ·) ∧ r.segs.Pairwise (· < ·) ∧
      (∀ m s, r.IsTar m s ↔ x.IsTar m s) ∧ (∀ m s, r.IsNon m s ↔ x.IsNon m s) := by
  obtain ⟨recs, h1, h2, h3⟩ := Key.saveRecords_spec x hx
  obtain ⟨r, r1, r2, r3, r4, r5, r6, _, _⟩ := Key.loadRecords_spec recs
  refine ⟨keyText recs, r, by simp [Key.saveTxt, h1], ?_, r2, r3, r4, fun m s => by rw [r5, h2], fun m s => by rw [r6, h3]⟩
  unfold Key.loadTxt
  rw [key_parse_text, Option.bind_some, r1]
  rintro ⟨m, s, b⟩ hr
  cases b with
  | true =>
    obtain ⟨a, b, _⟩ := (trueAt_iff hx.models hx.segs).1 ((h2 m s).1 hr)
    exact ⟨hm m a, hs s b⟩
  | false =>
    obtain ⟨a, b, _⟩ := (trueAt_iff hx.models hx.segs).1 ((h3 m s).1 hr)
    exact ⟨hm m a, hs s b⟩

/-! scores -/

theorem parse_digits (l : List Nat) (hl : l ≠ []) (h : ∀ d ∈ l, d < 10) : parseNat (l.map digitChar) = some (l.foldl (fun a d => 10 * a + d) 0) := by
  unfold parseNat
  rw [if_neg (by simpa using hl)]
  have key : ∀ (l : List Nat) (a : Nat), (∀ d ∈ l, d < 10) →
      (l.map digitChar).foldl (fun acc c => acc.bind (fun n => (digitVal c).map (fun d => 10 * n + d))) (some a) = some (l.foldl (fun a d => 10 * a + d) a) := by
    intro l
    induction l with
    | nil => intro a _; rfl
    | cons d l ih =>
      intro a h
      rw [List.map_cons, List.foldl_cons, List.foldl_cons]
      simp only [Option.bind_some]
      rw [digitVal_digitChar (h d (by simp))]
      exact ih _ (fun d' hd => h d' (List.mem_cons_of_mem _ hd))
  exact key l 0 h

theorem parse_pad6 {n : Nat} (h : n < 1000000) : parseNat (pad6 n) = some n := by
  have := parse_digits [n / 100000 % 10, n / 10000 % 10, n / 1000 % 10, n / 100 % 10, n / 10 % 10, n % 10] (by simp) (by
    intro d hd; simp at hd; omega)
  have e : pad6 n = [n / 100000 % 10, n / 10000 % 10, n / 1000 % 10, n / 100 % 10, n / 10 % 10, n % 10].map digitChar := rfl
  rw [e, this]
  simp only [List.foldl_cons, List.foldl_nil]
  congr 1
  omega

/-- the number read back from its six-decimal rendering. -/
def round6 (v : ℚ) : ℚ := (if v < 0 then -1 else 1) * ((roundEven (|v| * 1000000) : ℤ) / 1000000)

theorem round6_close (v : ℚ) : |round6 v - v| ≤ 1 / 2000000 := by
  unfold round6
  have hb := roundEven_bounds (|v| * 1000000)
  have : abs ((roundEven (|v| * 1000000) : ℚ) / 1000000 - abs v) ≤ 1 / 2000000 := by
    rw [abs_le]
    constructor <;> linarith [hb.1, hb.2]
  split
  · next h =>
    rw [abs_of_neg h] at this ⊢
    rw [← abs_neg]
    calc |-(-1 * ((roundEven (-v * 1000000) : ℚ) / 1000000) - v)| = |(roundEven (-v * 1000000) : ℚ) / 1000000 - -v| := by congr 1; ring
      _ ≤ _ := this
  · next h =>
    rw [abs_of_nonneg (not_lt.1 h)] at this ⊢
    rw [one_mul]
    exact this

theorem digit_ne_minus {d : Nat} (h : d < 10) : digitChar d ≠ '-' := by interval_cases d <;> decide

theorem parseF_printF (v : ℚ) : parseF (printF v) = some (round6 v) := by
  have hr : 0 ≤ roundEven (|v| * 1000000) := le_roundEven (by simp)
  obtain ⟨n, hn⟩ := Int.eq_ofNat_of_zero_le hr
  have hsplit : splitOnce '.' (printNat (n / 1000000) ++ '.' :: pad6 (n % 1000000)) = some (printNat (n / 1000000), pad6 (n % 1000000)) :=
    splitOnce_append (not_mem_printNat (by decide))
  have hval : ((n / 1000000 : Nat) : ℚ) + ((n % 1000000 : Nat) : ℚ) / 10 ^ 6 = (n : ℚ) / 1000000 := by
    have := Nat.div_add_mod n 1000000
    have h2 : ((n : Nat) : ℚ) = 1000000 * ((n / 1000000 : Nat) : ℚ) + ((n % 1000000 : Nat) : ℚ) := by exact_mod_cast this.symm
    rw [h2]; ring
  have hlen : (pad6 (n % 1000000)).length = 6 := rfl
  unfold printF
  dsimp only
  rw [hn]
  simp only [Int.ofNat_eq_natCast, Int.natAbs_natCast]
  by_cases hv : v < 0
  · rw [if_pos hv]
    simp only [List.singleton_append, parseF]
    rw [hsplit]
    simp only [parseNat_printNat, parse_pad6 (Nat.mod_lt _ (by decide : 0 < 1000000)), hlen]
    simp only [Option.bind_eq_bind, Option.bind_some, if_true]
    rw [hval]
    unfold round6
    rw [if_pos hv, hn]
    simp
  · rw [if_neg hv, List.nil_append]
    have hne : ∀ t, printNat (n / 1000000) ++ '.' :: pad6 (n % 1000000) ≠ '-' :: t := by
      intro t ht
      obtain ⟨c, cs, hc⟩ := List.exists_cons_of_ne_nil (printNat_ne_nil (n / 1000000))
      rw [hc] at ht
      simp only [List.cons_append, List.cons.injEq] at ht
      obtain ⟨d, hd, hcd⟩ := mem_printNat (n := n / 1000000) (c := c) (by rw [hc]; simp)
      rw [ht.1] at hcd
      exact digit_ne_minus hd hcd.symm
    have hm : parseF (printNat (n / 1000000) ++ '.' :: pad6 (n % 1000000)) =
        (match splitOnce '.' (printNat (n / 1000000) ++ '.' :: pad6 (n % 1000000)) with
        | none => none
        | some (a, b) => do
          let x ← parseNat a
          let y ← parseNat b
          pure ((x : ℚ) + y / 10 ^ b.length)) := by
      unfold parseF
      generalize printNat (n / 1000000) ++ '.' :: pad6 (n % 1000000) = s at hne
      split
      · next t h =>
        rcases s with _ | ⟨c, cs⟩
        · simp_all
        · simp_all
    rw [hm, hsplit]
    simp only [parseNat_printNat, parse_pad6 (Nat.mod_lt _ (by decide : 0 < 1000000)), hlen]
    simp only [Option.bind_eq_bind, Option.bind_some]
    rw [hval]
    unfold round6
    rw [if_neg hv, hn]
    simp

theorem word_printF (v : ℚ) : Word (printF v) := by
  constructor
  · unfold printF
    simp
  · intro c hc
    unfold printF at hc
    dsimp only at hc
    rw [List.mem_append] at hc
    rcases hc with hc | hc
    · split at hc
      · simp at hc; subst hc; decide
      · simp at hc
    · rw [List.mem_append, List.mem_cons] at hc
      rcases hc with hc | rfl | hc
      · obtain ⟨d, hd, rfl⟩ := mem_printNat hc; exact isSpace_digitChar hd
      · decide
      · simp only [pad6, List.mem_cons, List.not_mem_nil, or_false] at hc
        rcases hc with rfl | rfl | rfl | rfl | rfl | rfl <;> exact isSpace_digitChar (by omega)

theorem score_parse_text {recs : List (Str × Str × ℚ)} (h : ∀ r ∈ recs, Word r.1 ∧ Word r.2.1) :
    scoreParse (scoreText recs) = some (recs.map (fun r => (r.1, r.2.1, round6 r.2.2))) := by
  unfold scoreParse scoreText
  have e : recs.flatMap (fun r => (r.1 ++ ' ' :: r.2.1 ++ ' ' :: printF r.2.2) ++ ['\n']) =
      (recs.map (fun r => r.1 ++ ' ' :: r.2.1 ++ ' ' :: printF r.2.2)).flatMap (fun l => l ++ ['\n']) := by rw [List.flatMap_map]
  rw [e, fileLines_join, mapM_eq_some_iff, List.map_map, List.map_map, List.map_map]
  · apply List.map_congr_left
    intro r hr
    simp only [Function.comp]
    rw [split3 (h r hr).1 (h r hr).2 (word_printF _)]
    simp [parseF_printF]
  · intro l hl
    obtain ⟨r, hr, rfl⟩ := List.mem_map.1 hl
    exact noNl3 (h r hr).1 (h r hr).2 (word_printF _)

theorem saveRecords_transform (x : Scores Str ℚ) (f : ℚ → ℚ) {recs : List (Str × Str × ℚ)} (h : x.saveRecords = some recs) :
    (x.transform f).saveRecords = some (recs.map (fun r => (r.1, r.2.1, f r.2.2))) := by
  unfold Scores.saveRecords at h ⊢
  rw [mapM_eq_some_iff] at h ⊢
  rw [List.map_map]
  have e : recs.map (some ∘ fun r => (r.1, r.2.1, f r.2.2)) = (recs.map some).map (Option.map (fun r : Str × Str × ℚ => (r.1, r.2.1, f r.2.2))) := by
    rw [List.map_map]; rfl
  rw [e, ← h, List.map_map]
  have em : (x.transform f).mask = x.mask := rfl
  rw [em]
  apply List.map_congr_left
  rintro ⟨j, i⟩ hp
  have hm := (mem_nonzeroT.1 hp).2.2
  simp only [Function.comp, Scores.transform]
  cases x.models[i]? <;> [rfl; (cases x.segs[j]? <;> [rfl; simp [hm]])]

/-- **C17 (file).** For every score object whose names are words, the file written by `save_txt` is read back by `load_txt` into an object with exactly the same
scored trials, each score being the saved one rounded to six decimals (so within 5e-7 of it). -/
theorem C17_file_round_trip (x : Scores Str ℚ) (hx : x.WF) (hm : ∀ m ∈ x.models, Word m) (hs : ∀ s ∈ x.segs, Word s) :
    ∃ content r, x.saveTxt = some content ∧ Scores.loadTxt content = some r ∧ r.WF ∧ r.models.Pairwise (· < ·) ∧ r.segs.Pairwise (· < ·) ∧
      (∀ m s, r.Scored m s ↔ x.Scored m s) ∧
      ∀ m s v w, x.HasScore m s v → r.HasScore m s w → |w - v| ≤ 1 / 2000000 := by
  obtain ⟨recs, h1, h2⟩ := Scores.saveRecords_spec x hx
  have hx' : (x.transform round6).WF := ⟨hx.models, hx.segs, hx.srows, hx.scols, hx.mrows, hx.mcols⟩
  obtain ⟨recs', r, r1, r2, r3, r4, r5, r6⟩ := C17_txt_round_trip (x.transform round6) hx'
  rw [saveRecords_transform x round6 h1, Option.some.injEq] at r1
  subst r1
  obtain ⟨_, _, t1, t2, _⟩ := C17_transform x round6
  refine ⟨scoreText recs, r, by simp [Scores.saveTxt, h1], ?_, r3, r4, r5, ?_, ?_⟩
  · unfold Scores.loadTxt
    rw [score_parse_text, Option.bind_some, r2]
    rintro ⟨m, s, v⟩ hr
    obtain ⟨i, j, hi, hj, _⟩ := (h2 m s v).1 hr
    exact ⟨hm m (List.mem_of_getElem? hi), hs s (List.mem_of_getElem? hj)⟩
  · intro m s
    rw [← t1]
    constructor
    · rintro ⟨v, hv⟩; exact ⟨v, (r6 m s v).1 hv⟩
    · rintro ⟨v, hv⟩; exact ⟨v, (r6 m s v).2 hv⟩
  · intro m s v w hv hw
    obtain ⟨v', hv', rfl⟩ := (t2 m s w).1 ((r6 m s w).1 hw)
    rw [hasScore_iff hx] at hv hv'
    have : v' = v := by rw [← hv.2.2.2, hv'.2.2.2]
    rw [this]
    exact round6_close v

/-- non-vacuity: a score object with words as names and one unscored cell. -/
example : ∃ x : Scores Str ℚ, x.WF ∧ (∀ m ∈ x.models, Word m) ∧ (∀ s ∈ x.segs, Word s) ∧ x.Scored "m".toList "s".toList ∧ ¬ x.Scored "m".toList "t".toList := by
  refine ⟨⟨["m".toList], ["s".toList, "t".toList], ⟨1, 2, fun _ _ => 1 / 3⟩, ⟨1, 2, fun _ j => j == 0⟩⟩, ⟨by decide, by decide, rfl, rfl, rfl, rfl⟩, ?_, ?_, ?_, ?_⟩
  · intro m h; simp at h; subst h; exact ⟨by decide, by decide⟩
  · intro m h; simp at h; rcases h with rfl | rfl <;> exact ⟨by decide, by decide⟩
  · exact ⟨1 / 3, 0, 0, rfl, rfl, rfl, rfl⟩
  · rintro ⟨v, i, j, h1, h2, h3, _⟩
    match i, j with
    | 0, 0 => exact absurd h2 (by decide)
    | 0, 1 => exact absurd h3 (by decide)
    | 0, j + 2 => simp at h2
    | i + 1, _ => simp at h1

end Hyp.Trials
