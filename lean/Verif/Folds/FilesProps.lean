import Verif.Folds.Files
import Verif.Folds.Props
import Verif.ListUtils.Props
import Verif.TextLemmas

/-!
C153: lists of folds and parts as objects: files, alignment, names.
-/

namespace Hyp.Folds
open Hyp.Text

/-! ### integers as text -/

theorem parseNat_none {s : Str} {c : Char} (hc : c ∈ s) (h : digitVal c = none) : parseNat s = none := by
  unfold parseNat
  split
  · rfl
  · have stay : ∀ t : Str, t.foldl (fun (acc : Option Nat) c => acc.bind (fun n => (digitVal c).map (fun d => 10 * n + d))) none = none := by
      intro t
      induction t with
      | nil => rfl
      | cons a t ih => exact ih
    have key : ∀ (t : Str) (acc : Option Nat), c ∈ t → t.foldl (fun (acc : Option Nat) c => acc.bind (fun n => (digitVal c).map (fun d => 10 * n + d))) acc = none := by
      intro t
      induction t with
      | nil => intro _ h; cases h
      | cons a t ih =>
        intro acc hm
        rcases List.mem_cons.1 hm with rfl | hm
        · rw [List.foldl_cons, h]
          cases acc <;> exact stay t
        · exact ih _ hm
    exact key s _ hc

theorem digit_head (n : Nat) : ∃ d t, d < 10 ∧ printNat n = digitChar d :: t := by
  have hne := printNat_ne_nil n
  cases h : printNat n with
  | nil => exact absurd h hne
  | cons c t =>
    obtain ⟨d, hd, rfl⟩ := mem_printNat (n := n) (c := c) (by rw [h]; exact List.mem_cons_self)
    exact ⟨d, t, hd, rfl⟩

theorem digitChar_ne {d : Nat} (h : d < 10) {c : Char} (hc : digitVal c = none) : digitChar d ≠ c := by
  intro e
  rw [← e, digitVal_digitChar h] at hc
  cases hc

theorem parseInt_printInt (z : Int) : parseInt (Scp.printInt z) = some z := by
  unfold Scp.printInt
  by_cases hz : z < 0
  · rw [if_pos hz]
    show (parseNat (printNat z.natAbs)).map (fun n => -(n : Int)) = some z
    rw [parseNat_printNat]
    show some (-((z.natAbs : Nat) : Int)) = some z
    congr 1
    omega
  · rw [if_neg hz]
    obtain ⟨d, t, hd, e⟩ := digit_head z.natAbs
    have h1 : digitChar d ≠ '-' := digitChar_ne hd (by decide)
    have h2 : digitChar d ≠ '+' := digitChar_ne hd (by decide)
    have : parseInt (printNat z.natAbs) = (parseNat (printNat z.natAbs)).map (fun n => (n : Int)) := by
      rw [e]
      unfold parseInt
      split
      · rename_i heq; simp only [List.cons.injEq] at heq; exact absurd heq.1 h1
      · rename_i heq; simp only [List.cons.injEq] at heq; exact absurd heq.1 h2
      · rfl
    rw [this, parseNat_printNat]
    show some ((z.natAbs : Nat) : Int) = some z
    congr 1
    omega

/-- a character that is neither a digit nor a sign -/
theorem parseInt_none {s : Str} {c : Char} (hc : c ∈ s) (h : digitVal c = none) (h1 : c ≠ '-') (h2 : c ≠ '+') : parseInt s = none := by
  unfold parseInt
  split
  · rcases List.mem_cons.1 hc with rfl | hc
    · exact absurd rfl h1
    · rw [parseNat_none hc h]; rfl
  · rcases List.mem_cons.1 hc with rfl | hc
    · exact absurd rfl h2
    · rw [parseNat_none hc h]; rfl
  · rw [parseNat_none hc h]; rfl

theorem mem_printInt {z : Int} {c : Char} (h : c ∈ Scp.printInt z) : c = '-' ∨ ∃ d, d < 10 ∧ c = digitChar d := by
  unfold Scp.printInt at h
  split at h
  · rcases List.mem_cons.1 h with rfl | h
    · exact Or.inl rfl
    · exact Or.inr (mem_printNat h)
  · exact Or.inr (mem_printNat h)

theorem printInt_ne_nil (z : Int) : Scp.printInt z ≠ [] := by
  unfold Scp.printInt
  split
  · exact List.cons_ne_nil _ _
  · exact printNat_ne_nil _

theorem isSpace_printInt {z : Int} {c : Char} (h : c ∈ Scp.printInt z) : isSpace c = false := by
  rcases mem_printInt h with rfl | ⟨d, hd, rfl⟩
  · decide
  · exact isSpace_digitChar hd

/-- Specification: a separator can be any character that does not end a line and is not part of a number. -/
structure SepOk (sep : Char) : Prop where
  line : sep ≠ '\n' ∧ sep ≠ '\r'
  sign : sep ≠ '-'
  digit : digitVal sep = none

theorem SepOk.notin {sep : Char} (h : SepOk sep) (z : Int) : sep ∉ Scp.printInt z := by
  intro hm
  rcases mem_printInt hm with e | ⟨d, hd, e⟩
  · exact h.sign e
  · exact digitChar_ne hd h.digit e.symm

theorem nl_printInt (z : Int) : '\n' ∉ Scp.printInt z ∧ '\r' ∉ Scp.printInt z := by
  constructor <;> intro hm <;> rcases mem_printInt hm with e | ⟨d, hd, e⟩
  · exact absurd e (by decide)
  · exact digitChar_ne hd (by decide) e.symm
  · exact absurd e (by decide)
  · exact digitChar_ne hd (by decide) e.symm

/-! ### files -/

theorem validate_ne {part : List Int} (h : validate part = true) : part ≠ [] := by
  rintro rfl
  simp [validate] at h

theorem partSave_plain (sep : Char) : ∀ l : List (Str × Int), partSave sep none l =
    ((l.map (fun r => r.1 ++ [sep] ++ Scp.printInt r.2 ++ ['\n'])).flatten, true)
  | [] => rfl
  | (k, p) :: l => by
    show ((k ++ [sep] ++ Scp.printInt p ++ ['\n']) ++ (partSave sep none l).1, (partSave sep none l).2) = _
    rw [partSave_plain sep l]
    rfl

theorem plain_fields {sep : Char} (hsep : SepOk sep) (k : Str) (hk : sep ∉ k) (p : Int) :
    splitMax sep 2 (rstrip (k ++ [sep] ++ Scp.printInt p ++ ['\n'])) = [k, Scp.printInt p] := by
  have hr : rstrip (k ++ [sep] ++ Scp.printInt p ++ ['\n']) = k ++ [sep] ++ Scp.printInt p := by
    apply rstrip_line
    intro c hc
    rw [List.getLast?_append_of_ne_nil _ (printInt_ne_nil p)] at hc
    exact isSpace_printInt (List.mem_of_getLast? hc)
  rw [hr]
  have h1 : splitOnce sep (k ++ [sep] ++ Scp.printInt p) = some (k, Scp.printInt p) := by
    rw [List.append_assoc]
    exact splitOnce_append hk
  unfold splitMax
  rw [h1]
  dsimp only
  unfold splitMax
  rw [splitOnce_none (hsep.notin p)]

/-- **C153 (files of part lists).** A list of parts without names, saved and loaded with the same separator, has the same keys and
parts; the mask is lost. The keys must not contain the separator or line ends. -/
theorem C153_parts_round_trip (l : PList Str) (sep : Char) (hsep : SepOk sep) (hl : PList.make l.key l.part l.names l.mask = some l) (hn : l.names = none)
    (hk : ∀ k ∈ l.key, sep ∉ k ∧ '\n' ∉ k ∧ '\r' ∉ k) :
    (l.save sep).2 = true ∧ partLoad (l.save sep).1 sep = some ⟨l.key, l.part, none, none⟩ := by
  obtain ⟨key, part, names, mask⟩ := l
  dsimp only at hl hn hk
  subst hn
  unfold PList.make at hl
  split_ifs at hl with hv
  obtain ⟨hlen, hval, -⟩ := hv
  unfold PList.save
  dsimp only
  rw [partSave_plain]
  refine ⟨rfl, ?_⟩
  have hrows : ∀ r ∈ key.zip part, sep ∉ r.1 ∧ '\n' ∉ r.1 ∧ '\r' ∉ r.1 := fun r hr => hk _ (List.of_mem_zip (a := r.1) (b := r.2) hr).1
  have hlines : fileLines (((key.zip part).map (fun r => r.1 ++ [sep] ++ Scp.printInt r.2 ++ ['\n'])).flatten) =
      (key.zip part).map (fun r => r.1 ++ [sep] ++ Scp.printInt r.2 ++ ['\n']) := by
    have := fileLines_join (ls := (key.zip part).map (fun r => r.1 ++ [sep] ++ Scp.printInt r.2)) (by
      intro s hs
      obtain ⟨r, hr, rfl⟩ := List.mem_map.1 hs
      obtain ⟨-, h1, h2⟩ := hrows r hr
      have h3 := nl_printInt r.2
      simp only [List.mem_append, List.mem_singleton, not_or]
      exact ⟨⟨⟨h1, hsep.line.1.symm⟩, h3.1⟩, ⟨⟨h2, hsep.line.2.symm⟩, h3.2⟩⟩)
    rw [List.map_map] at this
    rw [List.flatMap_def, List.map_map] at this
    exact this
  have hfields : (fileLines (((key.zip part).map (fun r => r.1 ++ [sep] ++ Scp.printInt r.2 ++ ['\n'])).flatten)).map (fun l => splitMax sep 2 (rstrip l)) =
      (key.zip part).map (fun r => [r.1, Scp.printInt r.2]) := by
    rw [hlines, List.map_map]
    apply List.map_congr_left
    intro r hr
    exact plain_fields hsep r.1 (hrows r hr).1 r.2
  unfold partLoad
  rw [hfields]
  have hkey : ((key.zip part).map (fun r => [r.1, Scp.printInt r.2])).mapM (fun f : List Str => f[0]?) = some key := by
    rw [mapM_eq_some_iff, List.map_map]
    conv_rhs => rw [← List.map_fst_zip (l₁ := key) (l₂ := part) (by omega), List.map_map]
    rfl
  have hpart : ((key.zip part).map (fun r => [r.1, Scp.printInt r.2])).mapM (fun f : List Str => (f[1]?).bind parseInt) = some part := by
    rw [mapM_eq_some_iff, List.map_map]
    conv_rhs => rw [← List.map_snd_zip (l₁ := key) (l₂ := part) (by omega), List.map_map]
    apply List.map_congr_left
    intro r _
    exact parseInt_printInt r.2
  have h0 : ∃ r0, ((key.zip part).map (fun r => [r.1, Scp.printInt r.2]))[0]? = some [r0, Scp.printInt (part.headD 0)] := by
    have := validate_ne hval
    cases part with
    | nil => exact absurd rfl this
    | cons p ps => cases key with
      | nil => simp at hlen
      | cons k ks => exact ⟨k, rfl⟩
  obtain ⟨r0, h0⟩ := h0
  dsimp only
  rw [hkey, hpart, h0]
  show PList.make key part none none = _
  unfold PList.make
  rw [if_pos ⟨hlen, hval, rfl⟩]

theorem splitMax_head (sep : Char) (n : Nat) {a b : Str} (h : sep ∉ a) : splitMax sep (n + 1) (a ++ sep :: b) = a :: splitMax sep n b := by
  rw [splitMax, splitOnce_append h]

theorem alpha_facts {c : Char} (h : c.isAlpha = true) : digitVal c = none ∧ c ≠ '-' ∧ c ≠ '+' ∧ isSpace c = false ∧ c ≠ '\n' ∧ c ≠ '\r' := by
  have hc : (65 ≤ c.toNat ∧ c.toNat ≤ 90) ∨ (97 ≤ c.toNat ∧ c.toNat ≤ 122) := by
    simp only [Char.isAlpha, Char.isUpper, Char.isLower, Bool.or_eq_true, Bool.and_eq_true, decide_eq_true_eq, ge_iff_le, UInt32.le_iff_toNat_le] at h
    rcases h with h | h
    · left; exact h
    · right; exact h
  refine ⟨?_, ?_, ?_, ?_, ?_, ?_⟩
  · unfold digitVal
    rw [if_neg (by omega)]
  · rintro rfl; revert hc; decide
  · rintro rfl; revert hc; decide
  · unfold isSpace
    simp only [Bool.or_eq_false_iff, Bool.and_eq_false_iff, decide_eq_false_iff_not, beq_eq_false_iff_ne]
    omega
  · rintro rfl; revert hc; decide
  · rintro rfl; revert hc; decide

theorem splitOnce_prefix {sep : Char} : ∀ (w u : Str), sep ∉ w → splitOnce sep (w ++ u) = (splitOnce sep u).map (fun p => (w ++ p.1, p.2))
  | [], u, _ => by cases h : splitOnce sep u <;> simp [h]
  | c :: w, u, h => by
    have h1 : c ≠ sep := fun e => h (by rw [e]; exact List.mem_cons_self)
    have h2 : sep ∉ w := fun e => h (List.mem_cons_of_mem _ e)
    show (if c = sep then some ([], w ++ u) else (splitOnce sep (w ++ u)).map (fun p => (c :: p.1, p.2))) = _
    rw [if_neg h1, splitOnce_prefix w u h2]
    cases splitOnce sep u <;> rfl

theorem splitMax_first {sep : Char} (n : Nat) {w : Str} (u : Str) (h : sep ∉ w) : ∃ v, (splitMax sep n (w ++ u))[0]? = some (w ++ v) := by
  cases n with
  | zero => exact ⟨u, rfl⟩
  | succ n =>
    rw [splitMax, splitOnce_prefix w u h]
    cases splitOnce sep u with
    | none => exact ⟨u, rfl⟩
    | some q => exact ⟨q.1, rfl⟩

theorem rstrip_keep (w u : Str) (hw : w ≠ []) (h : ∀ c ∈ w.getLast?, isSpace c = false) : ∃ v, rstrip (w ++ u) = w ++ v := by
  unfold rstrip
  induction u using List.reverseRecOn with
  | nil =>
    refine ⟨[], ?_⟩
    have := rstrip_id h
    unfold rstrip at this
    simpa using this
  | append_singleton u c ih =>
    by_cases hc : isSpace c = true
    · rw [← List.append_assoc, List.rdropWhile_concat_pos _ _ _ hc]
      exact ih
    · rw [← List.append_assoc, List.rdropWhile_concat_neg _ _ _ hc]
      exact ⟨u ++ [c], by rw [List.append_assoc]⟩

/-- **C153 (defect).** A list of parts with names that begin with a letter (like the default ones) can be saved, when every part has a
name, but the file cannot be loaded: the number and the name are written without separator. -/
theorem C153_names_lost (l : PList Str) (sep : Char) (hsep : SepOk sep) (ha : sep.isAlpha = false) (hl : PList.make l.key l.part l.names l.mask = some l)
    (ns : List Str) (hn : l.names = some ns) (hp : ∀ p ∈ l.part, -1 ≤ p ∧ p < ns.length) (hne : ns ≠ [])
    (hns : ∀ n ∈ ns, (∃ c t, n = c :: t ∧ c.isAlpha = true) ∧ '\n' ∉ n ∧ '\r' ∉ n)
    (hk : ∀ k ∈ l.key, sep ∉ k ∧ '\n' ∉ k ∧ '\r' ∉ k) :
    (l.save sep).2 = true ∧ partLoad (l.save sep).1 sep = none := by
  obtain ⟨key, part, names, mask⟩ := l
  dsimp only at hl hn hk hp
  subst hn
  unfold PList.make at hl
  split_ifs at hl with hv
  obtain ⟨hlen, hval, -⟩ := hv
  have hnl : 0 < ns.length := List.length_pos_iff.2 hne
  have hget : ∀ p ∈ part, ∃ n ∈ ns, pyGet ns p = some n := by
    intro p hpp
    obtain ⟨h1, h2⟩ := hp p hpp
    unfold pyGet
    by_cases h0 : 0 ≤ p
    · rw [if_pos h0]
      have h3 : p.toNat < ns.length := by omega
      exact ⟨_, List.getElem_mem h3, List.getElem?_eq_getElem h3⟩
    · rw [if_neg h0, if_pos (by omega)]
      have h3 : (p + ns.length).toNat < ns.length := by omega
      exact ⟨_, List.getElem_mem h3, List.getElem?_eq_getElem h3⟩
  choose! nm hnm hnm' using hget
  have hsave : ∀ rows : List (Str × Int), (∀ r ∈ rows, r.2 ∈ part) → partSave sep (some ns) rows =
      ((rows.map (fun r => r.1 ++ [sep] ++ Scp.printInt r.2 ++ nm r.2 ++ ['\n'])).flatten, true) := by
    intro rows
    induction rows with
    | nil => intro _; rfl
    | cons r rows ih =>
      intro h
      obtain ⟨k, p⟩ := r
      have e : partLine sep (some ns) k p = some (k ++ [sep] ++ Scp.printInt p ++ nm p ++ ['\n']) := by
        show (pyGet ns p).map _ = _
        rw [hnm' p (h _ List.mem_cons_self)]
        rfl
      rw [partSave, e]
      dsimp only
      rw [ih (fun r hr => h r (List.mem_cons_of_mem _ hr))]
      rfl
  have hmem : ∀ r ∈ key.zip part, r.2 ∈ part ∧ r.1 ∈ key := fun r hr => (List.of_mem_zip (a := r.1) (b := r.2) hr).symm
  unfold PList.save
  dsimp only
  rw [hsave _ (fun r hr => (hmem r hr).1)]
  refine ⟨rfl, ?_⟩
  have hlines : fileLines (((key.zip part).map (fun r => r.1 ++ [sep] ++ Scp.printInt r.2 ++ nm r.2 ++ ['\n'])).flatten) =
      (key.zip part).map (fun r => r.1 ++ [sep] ++ Scp.printInt r.2 ++ nm r.2 ++ ['\n']) := by
    have := fileLines_join (ls := (key.zip part).map (fun r => r.1 ++ [sep] ++ Scp.printInt r.2 ++ nm r.2)) (by
      intro s hs
      obtain ⟨r, hr, rfl⟩ := List.mem_map.1 hs
      obtain ⟨-, h1, h2⟩ := hk _ (hmem r hr).2
      have h3 := nl_printInt r.2
      obtain ⟨-, h4, h5⟩ := hns _ (hnm r.2 (hmem r hr).1)
      simp only [List.mem_append, List.mem_singleton, not_or]
      exact ⟨⟨⟨⟨h1, hsep.line.1.symm⟩, h3.1⟩, h4⟩, ⟨⟨⟨h2, hsep.line.2.symm⟩, h3.2⟩, h5⟩⟩)
    rw [List.map_map] at this
    rw [List.flatMap_def, List.map_map] at this
    exact this
  have hbad : ∀ r ∈ key.zip part, ((splitMax sep 2 (rstrip (r.1 ++ [sep] ++ Scp.printInt r.2 ++ nm r.2 ++ ['\n'])))[1]?).bind parseInt = none := by
    intro r hr
    obtain ⟨⟨c, t, hct, hc⟩, -, -⟩ := hns _ (hnm r.2 (hmem r hr).1)
    obtain ⟨f1, f2, f3, f4, -, -⟩ := alpha_facts hc
    have hcs : c ≠ sep := by
      rintro rfl
      rw [hc] at ha
      cases ha
    have e1 : r.1 ++ [sep] ++ Scp.printInt r.2 ++ nm r.2 ++ ['\n'] = (r.1 ++ sep :: (Scp.printInt r.2 ++ [c])) ++ (t ++ ['\n']) := by
      rw [hct]; simp
    obtain ⟨v, hv⟩ := rstrip_keep (r.1 ++ sep :: (Scp.printInt r.2 ++ [c])) (t ++ ['\n']) (by simp) (by
      intro d hd
      have : d = c := by
        have e : r.1 ++ sep :: (Scp.printInt r.2 ++ [c]) = (r.1 ++ sep :: Scp.printInt r.2) ++ [c] := by simp
        rw [e, List.getLast?_concat] at hd
        exact (Option.some.inj hd).symm
      rw [this]; exact f4)
    rw [e1, hv]
    have e2 : r.1 ++ sep :: (Scp.printInt r.2 ++ [c]) ++ v = r.1 ++ sep :: ((Scp.printInt r.2 ++ [c]) ++ v) := by simp
    rw [e2, splitMax_head sep 1 (hk _ (hmem r hr).2).1]
    obtain ⟨u, hu⟩ := splitMax_first (sep := sep) 1 (w := Scp.printInt r.2 ++ [c]) v (by
      simp only [List.mem_append, List.mem_singleton, not_or]
      exact ⟨hsep.notin r.2, fun e => hcs e.symm⟩)
    show ((splitMax sep 1 ((Scp.printInt r.2 ++ [c]) ++ v))[0]?).bind parseInt = none
    rw [hu]
    exact parseInt_none (c := c) (by simp) f1 f2 f3
  have hrow : ∃ r, r ∈ key.zip part := by
    cases part with
    | nil => exact absurd rfl (validate_ne hval)
    | cons p ps => cases key with
      | nil => simp at hlen
      | cons k ks => exact ⟨(k, p), List.mem_cons_self⟩
  obtain ⟨r, hr⟩ := hrow
  unfold partLoad
  rw [hlines, List.map_map]
  dsimp only
  have hnone : ((key.zip part).map ((fun l => splitMax sep 2 (rstrip l)) ∘ fun r => r.1 ++ [sep] ++ Scp.printInt r.2 ++ nm r.2 ++ ['\n'])).mapM
      (fun f : List Str => (f[1]?).bind parseInt) = none := by
    rw [mapM_eq_none_iff]
    exact ⟨_, List.mem_map_of_mem hr, hbad r hr⟩
  rw [hnone]
  generalize List.mapM (fun f : List Str => f[0]?) _ = o
  cases o <;> rfl

/-- **C153 (defect).** Saving a list of folds raises and leaves an empty file. -/
theorem C153_fold_save (l : PList Unit) (hl : PList.make l.key l.part l.names l.mask = some l) : foldSave l = ([], false) := by
  unfold PList.make at hl
  split_ifs at hl with hv
  have := validate_ne hv.2.1
  unfold foldSave
  rw [List.isEmpty_eq_false_iff.2 this]

/-- **C153 (fold files).** A text file with lines "fold, separator, key" is loaded as the list of these folds and keys, if it is a valid
list; keys may contain the separator, but they do not end with white space and are not empty. -/
theorem C153_fold_load (rows : List (Int × Str)) (sep : Char) (hsep : SepOk sep)
    (hk : ∀ r ∈ rows, r.2 ≠ [] ∧ (∀ c ∈ r.2.getLast?, isSpace c = false) ∧ '\n' ∉ r.2 ∧ '\r' ∉ r.2) :
    foldLoad ((rows.map (fun r => Scp.printInt r.1 ++ [sep] ++ r.2 ++ ['\n'])).flatten) sep =
      if validate (rows.map Prod.fst) = true then some ⟨rows.map Prod.snd, rows.map Prod.fst, none, none⟩ else none := by
  have hlines : fileLines ((rows.map (fun r => Scp.printInt r.1 ++ [sep] ++ r.2 ++ ['\n'])).flatten) =
      rows.map (fun r => Scp.printInt r.1 ++ [sep] ++ r.2 ++ ['\n']) := by
    have := fileLines_join (ls := rows.map (fun r => Scp.printInt r.1 ++ [sep] ++ r.2)) (by
      intro s hs
      obtain ⟨r, hr, rfl⟩ := List.mem_map.1 hs
      obtain ⟨-, -, h1, h2⟩ := hk r hr
      have h3 := nl_printInt r.1
      simp only [List.mem_append, List.mem_singleton, not_or]
      exact ⟨⟨⟨h3.1, hsep.line.1.symm⟩, h1⟩, ⟨⟨h3.2, hsep.line.2.symm⟩, h2⟩⟩)
    rw [List.map_map] at this
    rw [List.flatMap_def, List.map_map] at this
    exact this
  have hfields : (rows.map (fun r => Scp.printInt r.1 ++ [sep] ++ r.2 ++ ['\n'])).map (fun l => splitMax sep 1 (rstrip l)) =
      rows.map (fun r => [Scp.printInt r.1, r.2]) := by
    rw [List.map_map]
    apply List.map_congr_left
    intro r hr
    obtain ⟨h1, h2, -, -⟩ := hk r hr
    show splitMax sep 1 (rstrip (Scp.printInt r.1 ++ [sep] ++ r.2 ++ ['\n'])) = _
    rw [rstrip_line (by
      intro c hc
      rw [List.getLast?_append_of_ne_nil _ h1] at hc
      exact h2 c hc), List.append_assoc]
    exact splitMax_head sep 0 (hsep.notin r.1)
  unfold foldLoad
  rw [hlines, hfields]
  have h1 : (rows.map (fun r => [Scp.printInt r.1, r.2])).mapM (fun f : List Str => (f[0]?).bind parseInt) = some (rows.map Prod.fst) := by
    rw [mapM_eq_some_iff, List.map_map, List.map_map]
    apply List.map_congr_left
    intro r _
    exact parseInt_printInt r.1
  have h2 : (rows.map (fun r => [Scp.printInt r.1, r.2])).mapM (fun f : List Str => f[1]?) = some (rows.map Prod.snd) := by
    rw [mapM_eq_some_iff, List.map_map, List.map_map]
    rfl
  dsimp only
  rw [h1, h2]
  show PList.make (rows.map Prod.snd) (rows.map Prod.fst) none none = _
  unfold PList.make
  have : (rows.map Prod.snd).length = (rows.map Prod.fst).length := by simp
  by_cases hv : validate (rows.map Prod.fst) = true
  · rw [if_pos ⟨this, hv, rfl⟩, if_pos hv]
  · rw [if_neg (fun h => hv h.2.1), if_neg hv]

/-! ### alignment, names, number of parts -/

theorem ismember_found {α : Type} [DecidableEq α] (a b : List α) : ((ListUtils.ismember a b).1.all id = true ↔ ∀ k ∈ a, k ∈ b) ∧
    ((∀ k ∈ a, k ∈ b) → ∃ idx, (ListUtils.ismember a b).2.mapM id = some idx ∧ idx.length = a.length ∧
      ∀ (i : Nat) (k : α), a[i]? = some k → ∃ j : Nat, idx[i]? = some j ∧ b[j]? = some k ∧ ∀ j' < j, b[j']? ≠ some k) := by
  obtain ⟨h1, h2, h3⟩ := ListUtils.C03_ismember a b
  constructor
  · rw [List.all_eq_true]
    constructor
    · intro h k hk
      obtain ⟨i, hi⟩ := List.mem_iff_getElem?.1 hk
      have := h _ (List.mem_of_getElem? (h3 i k hi).1)
      simpa using this
    · intro h x hx
      obtain ⟨i, hi⟩ := List.mem_iff_getElem?.1 hx
      have hil : i < a.length := by rw [← h1]; exact (List.getElem?_eq_some_iff.1 hi).1
      have := (h3 i _ (List.getElem?_eq_getElem hil)).1
      rw [hi] at this
      rw [Option.some.inj this]
      simpa using h _ (List.getElem_mem hil)
  · intro h
    have hne : (ListUtils.ismember a b).2.mapM id ≠ none := by
      intro hn
      rw [mapM_eq_none_iff] at hn
      obtain ⟨o, ho, hn⟩ := hn
      obtain ⟨i, hi⟩ := List.mem_iff_getElem?.1 ho
      have hil : i < a.length := by rw [← h2]; exact (List.getElem?_eq_some_iff.1 hi).1
      obtain ⟨-, loc, hl, hnone, -⟩ := h3 i _ (List.getElem?_eq_getElem hil)
      rw [hi] at hl
      obtain rfl := Option.some.inj hl
      exact hnone.1 hn (h _ (List.getElem_mem hil))
    obtain ⟨idx, hidx⟩ := Option.ne_none_iff_exists'.1 hne
    have hmap := mapM_eq_some_iff.1 hidx
    rw [List.map_id] at hmap
    refine ⟨idx, hidx, ?_, fun i k hik => ?_⟩
    · rw [← h2, hmap, List.length_map]
    · obtain ⟨-, loc, hl, -, hj⟩ := h3 i k hik
      rw [hmap, List.getElem?_map] at hl
      cases hx : idx[i]? with
      | none => rw [hx] at hl; cases hl
      | some j =>
        rw [hx] at hl
        exact ⟨j, rfl, (hj j).1 (Option.some.inj hl).symm⟩

/-- **C153 (alignment).** When all keys are in the list, the aligned list has exactly these keys, and each has part and mask of its (first)
occurrence in the list. When a key is missing, the call raises, or (without `raise_missing`) changes nothing. -/
theorem C153_align {ν : Type} (l : PList ν) (hl : PList.make l.key l.part l.names l.mask = some l) (key : List Str) (rm : Bool) :
    ((∀ k ∈ key, k ∈ l.key) → ∃ a, l.align key rm = some a ∧ a.key = key ∧ a.names = l.names ∧ a.part.length = key.length ∧
      (∀ m, l.mask = some m → ∃ m', a.mask = some m' ∧ m'.length = key.length) ∧ (l.mask = none → a.mask = none) ∧
      ∀ (i j : Nat) (k : Str), key[i]? = some k → l.key[j]? = some k → (∀ j' < j, l.key[j']? ≠ some k) →
        a.part[i]? = l.part[j]? ∧ ∀ m m', l.mask = some m → a.mask = some m' → m'[i]? = m[j]?) ∧
    ((∃ k ∈ key, k ∉ l.key) → l.align key rm = if rm then none else some l) := by
  obtain ⟨key0, part, names, mask⟩ := l
  unfold PList.make at hl
  split_ifs at hl with hv
  obtain ⟨hlen, -, hmask⟩ := hv
  dsimp only at hlen hmask ⊢
  unfold PList.align
  dsimp only
  constructor
  · intro hall
    rw [if_pos ((ismember_found key key0).1.2 hall)]
    obtain ⟨idx, hidx, hil, hi⟩ := (ismember_found key key0).2 hall
    rw [hidx]
    have g : ∀ {β : Type} (a : List β), a.length = key0.length → ∃ r, gatherD a idx = some r ∧ r.length = key.length ∧
        ∀ (i j : Nat), idx[i]? = some j → r[i]? = a[j]? := by
      intro β a ha
      have hne : gatherD a idx ≠ none := by
        unfold gatherD
        intro h
        rw [mapM_eq_none_iff] at h
        obtain ⟨j, hj, hn⟩ := h
        obtain ⟨i, hij⟩ := List.mem_iff_getElem?.1 hj
        have hik : i < key.length := by rw [← hil]; exact (List.getElem?_eq_some_iff.1 hij).1
        obtain ⟨j', h1, h2, -⟩ := hi i _ (List.getElem?_eq_getElem hik)
        rw [hij] at h1
        obtain rfl := Option.some.inj h1
        have := (List.getElem?_eq_some_iff.1 h2).1
        rw [← ha] at this
        rw [List.getElem?_eq_getElem this] at hn
        cases hn
      obtain ⟨r, hr⟩ := Option.ne_none_iff_exists'.1 hne
      refine ⟨r, hr, ?_, ?_⟩
      · unfold gatherD at hr
        rw [mapM_eq_some_iff] at hr
        have := congrArg List.length hr
        rw [← hil]
        simpa using this.symm
      · intro i j hij
        unfold gatherD at hr
        rw [mapM_eq_some_iff] at hr
        have := congrArg (fun l => l[i]?) hr
        simp only [List.getElem?_map, hij, Option.map_some] at this
        cases hri : r[i]? with
        | none => rw [hri] at this; cases this
        | some y => rw [hri] at this; simpa using this.symm
    obtain ⟨rk, hrk, lrk, grk⟩ := g key0 rfl
    obtain ⟨rp, hrp, lrp, grp⟩ := g part hlen.symm
    have hkeyeq : rk = key := by
      apply List.ext_getElem?
      intro i
      by_cases hlt : i < key.length
      · obtain ⟨j, h1, h2, -⟩ := hi i _ (List.getElem?_eq_getElem hlt)
        rw [grk i j h1, h2, List.getElem?_eq_getElem hlt]
      · rw [List.getElem?_eq_none (by omega), List.getElem?_eq_none (by omega)]
    have hfirst : ∀ (i j : Nat) (k : Str), key[i]? = some k → key0[j]? = some k → (∀ j' < j, key0[j']? ≠ some k) → idx[i]? = some j := by
      intro i j k hk hj hmin
      obtain ⟨j', h1, h2, h3⟩ := hi i k hk
      rcases Nat.lt_trichotomy j' j with h | h | h
      · exact absurd h2 (hmin _ h)
      · rw [h1, h]
      · exact absurd hj (h3 _ h)
    cases mask with
    | none =>
      refine ⟨⟨key, rp, names, none⟩, ?_, rfl, rfl, lrp, fun m h => (by cases h), fun _ => rfl, fun i j k hi hj hmin => ⟨?_, fun m m' h => (by cases h)⟩⟩
      · simp [hrk, hrp, hkeyeq]
      · exact grp i j (hfirst i j k hi hj hmin)
    | some m0 =>
      have hm0 : m0.length = key0.length := by simpa [hlen] using hmask
      obtain ⟨rm', hrm, lrm, grm⟩ := g m0 hm0
      refine ⟨⟨key, rp, names, some rm'⟩, ?_, rfl, rfl, lrp, fun m _ => ⟨rm', rfl, lrm⟩, fun h => (by cases h), fun i j k hi hj hmin => ⟨?_, fun m m' h h' => ?_⟩⟩
      · simp [hrk, hrp, hkeyeq, hrm]
      · exact grp i j (hfirst i j k hi hj hmin)
      · cases h; cases h'
        exact grm i j (hfirst i j k hi hj hmin)
  · rintro ⟨k, hk, hk0⟩
    rw [if_neg (fun h => hk0 ((ismember_found key key0).1.1 h k hk))]

/-- **C153 (parts by name).** A part is found by name exactly when the list has names and this is one of them; its number is the position of
the name (of the last one if it is repeated), and the flags are those of that number. -/
theorem C153_by_name (l : PList Str) (name : Str) :
    (l.partIdxByName name = none ↔ ∀ ns, l.names = some ns → name ∉ ns) ∧
    ∀ fl, l.partIdxByName name = some fl → ∃ (ns : List Str) (k : Nat), l.names = some ns ∧ ns[k]? = some name ∧ (∀ k' > k, ns[k']? ≠ some name) ∧
      fl = getPartIdx l.part l.mask (k : Int) := by
  have key : ∀ ns : List Str, (name ∉ ns → dictGet ((List.range ns.length).zip ns |>.foldl (fun d p => dictSet d p.2 p.1) []) name = none) ∧
      (name ∈ ns → ∃ k : Nat, dictGet ((List.range ns.length).zip ns |>.foldl (fun d p => dictSet d p.2 p.1) []) name = some k ∧
        ns[k]? = some name ∧ ∀ k' > k, ns[k']? ≠ some name) := by
    intro ns
    induction ns using List.reverseRecOn with
    | nil => exact ⟨fun _ => rfl, fun h => absurd h (List.not_mem_nil)⟩
    | append_singleton ns x ih =>
      have e : ((List.range (ns ++ [x]).length).zip (ns ++ [x])).foldl (fun d p => dictSet d p.2 p.1) ([] : List (Str × Nat)) =
          dictSet (((List.range ns.length).zip ns).foldl (fun d p => dictSet d p.2 p.1) []) x ns.length := by
        rw [List.length_append, List.length_singleton, List.range_succ, List.zip_append (by simp), List.foldl_append]
        rfl
      rw [e, dictGet_set]
      by_cases hx : x = name
      · subst hx
        refine ⟨fun h => absurd (by simp) h, fun _ => ⟨ns.length, by simp, by simp, fun k' hk' => ?_⟩⟩
        rw [List.getElem?_eq_none (by simp; omega)]
        simp
      · have hx' : name ≠ x := fun e => hx e.symm
        simp only [hx, hx', if_false, List.mem_append, List.mem_singleton, or_false]
        refine ⟨ih.1, fun h => ?_⟩
        obtain ⟨k, h1, h2, h3⟩ := ih.2 h
        have hk := (List.getElem?_eq_some_iff.1 h2).1
        refine ⟨k, h1, by rw [List.getElem?_append_left hk]; exact h2, fun k' hk' => ?_⟩
        by_cases hlt : k' < ns.length
        · rw [List.getElem?_append_left hlt]; exact h3 k' hk'
        · rw [List.getElem?_append_right (by omega)]
          rcases Nat.eq_or_lt_of_le (Nat.le_of_not_lt hlt) with h | h
          · rw [← h]; simpa using hx
          · rw [List.getElem?_eq_none (by simp; omega)]; simp
  obtain ⟨key0, part, names, mask⟩ := l
  unfold PList.partIdxByName partOfName
  dsimp only
  cases names with
  | none => exact ⟨⟨fun _ ns h => (by cases h), fun _ => rfl⟩, fun fl h => (by cases h)⟩
  | some ns =>
    dsimp only
    by_cases hm : name ∈ ns
    · obtain ⟨k, h1, h2, h3⟩ := (key ns).2 hm
      rw [h1]
      refine ⟨⟨fun h => (by cases h), fun h => absurd hm (h ns rfl)⟩, fun fl h => ?_⟩
      exact ⟨ns, k, rfl, h2, h3, (Option.some.inj h).symm⟩
    · rw [(key ns).1 hm]
      exact ⟨⟨fun _ ns' h => (by cases h; exact hm), fun _ => rfl⟩, fun fl h => (by cases h)⟩

/-- **C153 (number of parts).** The length of a valid list of parts (numbers from -1 on) is the number `n` such that the parts in use are
exactly `0, …, n-1`. `len` of a list of folds always raises. -/
theorem C153_len {ν : Type} (l : PList ν) (hl : PList.make l.key l.part l.names l.mask = some l) (hp : ∀ p ∈ l.part, -1 ≤ p) :
    ∃ n : Nat, l.len = some (n : Int) ∧ ∀ p : Int, 0 ≤ p → (p ∈ l.part ↔ p < n) := by
  unfold PList.make at hl
  split_ifs at hl with hv
  obtain ⟨-, hval, -⟩ := hv
  have hne := validate_ne hval
  have hgap := (validate_iff hne hp).1 hval
  unfold PList.len
  cases h : l.part with
  | nil => exact absurd h hne
  | cons a as =>
    have hmem : as.foldl max a ∈ a :: as := by
      clear hl hval hne hgap hp h
      induction as generalizing a with
      | nil => exact List.mem_cons_self
      | cons b bs ih =>
        have := ih (max a b)
        rcases List.mem_cons.1 this with e | e
        · rw [List.foldl_cons, e]
          rcases max_choice a b with m | m <;> rw [m] <;> simp
        · exact List.mem_cons_of_mem _ (List.mem_cons_of_mem _ e)
    have hmax : ∀ p ∈ a :: as, p ≤ as.foldl max a := by
      clear hl hval hne hgap hp h hmem
      induction as generalizing a with
      | nil => intro p hp; rw [List.mem_singleton.1 hp]; exact le_refl _
      | cons b bs ih =>
        intro p hp
        rw [List.foldl_cons]
        rcases List.mem_cons.1 hp with rfl | hp
        · exact (le_max_left _ b).trans (ih (max p b) _ List.mem_cons_self)
        · rcases List.mem_cons.1 hp with rfl | hp
          · exact (le_max_right a _).trans (ih (max a p) _ List.mem_cons_self)
          · exact ih _ _ (List.mem_cons_of_mem _ hp)
    rw [h] at hgap hp
    have h0 := hp _ hmem
    refine ⟨(as.foldl max a + 1).toNat, ?_, fun p hp0 => ⟨fun hpm => ?_, fun hlt => ?_⟩⟩
    · show some (as.foldl max a + 1) = _
      congr 1
      omega
    · have := hmax p hpm
      omega
    · exact hgap _ hmem p hp0 (by omega)

theorem C153_fold_len_raises (l : PList Unit) : foldLen l = none := rfl

/-- **C153 (training and test keys).** For every fold the keys for training and test are disjoint parts of the list, in order: with
distinct keys, a key is among the test keys exactly if it is in this fold, and among the training keys exactly if it is in another one (in both
cases if the mask lets it through). -/
theorem C153_get_fold (l : PList Unit) (hl : PList.make l.key l.part l.names l.mask = some l) (fold : Int) :
    (l.getFold fold).1.Sublist l.key ∧ (l.getFold fold).2.Sublist l.key ∧
    ∀ k : Str, (k ∈ (l.getFold fold).2 ↔ ∃ (i : Nat) (f : Int), l.key[i]? = some k ∧ l.part[i]? = some f ∧ f = fold ∧ ∀ m, l.mask = some m → m[i]? = some true) ∧
      (k ∈ (l.getFold fold).1 ↔ ∃ (i : Nat) (f : Int), l.key[i]? = some k ∧ l.part[i]? = some f ∧ f ≠ fold ∧ ∀ m, l.mask = some m → m[i]? = some true) := by
  obtain ⟨key, part, names, mask⟩ := l
  unfold PList.make at hl
  split_ifs at hl with hv
  obtain ⟨hlen, -, hmask⟩ := hv
  dsimp only at hlen hmask ⊢
  have sub : ∀ (fl : List Bool), (((key.zip fl).filter Prod.snd).map Prod.fst).Sublist key := by
    intro fl
    have h1 : (((key.zip fl).filter Prod.snd).map Prod.fst).Sublist ((key.zip fl).map Prod.fst) := (List.filter_sublist).map _
    have h2 : ((key.zip fl).map Prod.fst).Sublist key := by
      have : ∀ (a : List Str) (b : List Bool), ((a.zip b).map Prod.fst).Sublist a := by
        intro a
        induction a with
        | nil => intro b; simp
        | cons x a ih => intro b; cases b with
          | nil => simp
          | cons y b => simpa using ih b
      exact this key fl
    exact h1.trans h2
  have mem : ∀ (fl : List Bool) (k : Str), k ∈ ((key.zip fl).filter Prod.snd).map Prod.fst ↔ ∃ i : Nat, key[i]? = some k ∧ fl[i]? = some true := by
    intro fl k
    simp only [List.mem_map, List.mem_filter]
    constructor
    · rintro ⟨r, ⟨h1, h2⟩, rfl⟩
      obtain ⟨i, hi⟩ := List.mem_iff_getElem?.1 h1
      obtain ⟨h3, h4⟩ := List.getElem?_zip_eq_some.1 hi
      exact ⟨i, h3, by rw [h4, h2]⟩
    · rintro ⟨i, h1, h2⟩
      exact ⟨(k, true), ⟨List.mem_iff_getElem?.2 ⟨i, List.getElem?_zip_eq_some.2 ⟨h1, h2⟩⟩, rfl⟩, rfl⟩
  refine ⟨sub _, sub _, fun k => ⟨?_, ?_⟩⟩
  · unfold PList.getFold getFoldIdx
    dsimp only
    cases mask with
    | none =>
      dsimp only
      rw [mem]
      constructor
      · rintro ⟨i, h1, h2⟩
        rw [List.getElem?_map, Option.map_eq_some_iff] at h2
        obtain ⟨f, h2, h3⟩ := h2
        exact ⟨i, f, h1, h2, of_decide_eq_true h3, fun m h => (by cases h)⟩
      · rintro ⟨i, f, h1, h2, h3, -⟩
        exact ⟨i, h1, by rw [List.getElem?_map, h2]; simp [h3]⟩
    | some m =>
      dsimp only
      rw [mem]
      constructor
      · rintro ⟨i, h1, h2⟩
        rw [List.getElem?_zipWith, List.getElem?_map] at h2
        cases hp : part[i]? with
        | none => rw [hp] at h2; simp at h2
        | some f =>
          cases hm : m[i]? with
          | none => rw [hp, hm] at h2; simp at h2
          | some b =>
            rw [hp, hm] at h2
            simp at h2
            refine ⟨i, f, h1, hp, h2.1, fun m' h => ?_⟩
            cases h
            rw [hm, h2.2]
      · rintro ⟨i, f, h1, h2, h3, h4⟩
        refine ⟨i, h1, ?_⟩
        rw [List.getElem?_zipWith, List.getElem?_map, h2, h4 m rfl]
        simp [h3]
  · unfold PList.getFold getFoldIdx
    dsimp only
    cases mask with
    | none =>
      dsimp only
      rw [mem]
      constructor
      · rintro ⟨i, h1, h2⟩
        rw [List.getElem?_map, List.getElem?_map] at h2
        cases hp : part[i]? with
        | none => rw [hp] at h2; simp at h2
        | some f => exact ⟨i, f, h1, hp, by rw [hp] at h2; simpa using h2, fun m h => (by cases h)⟩
      · rintro ⟨i, f, h1, h2, h3, -⟩
        exact ⟨i, h1, by rw [List.getElem?_map, List.getElem?_map, h2]; simp [h3]⟩
    | some m =>
      dsimp only
      rw [mem]
      constructor
      · rintro ⟨i, h1, h2⟩
        rw [List.getElem?_zipWith, List.getElem?_map, List.getElem?_map] at h2
        cases hp : part[i]? with
        | none => rw [hp] at h2; simp at h2
        | some f =>
          cases hm : m[i]? with
          | none => rw [hp, hm] at h2; simp at h2
          | some b =>
            rw [hp, hm] at h2
            simp at h2
            refine ⟨i, f, h1, hp, h2.1, fun m' h => ?_⟩
            cases h
            rw [hm, h2.2]
      · rintro ⟨i, f, h1, h2, h3, h4⟩
        refine ⟨i, h1, ?_⟩
        rw [List.getElem?_zipWith, List.getElem?_map, List.getElem?_map, h2, h4 m rfl]
        simp [h3]

/-- **C18** (`get_part` on a list of two rows returns the two flags, not keys). -/
theorem C18_get_part_two (p q part : Int) : getPart [p, q] none part = some (decide (p = part), decide (q = part)) := rfl

/-- **C153 (default names).** Two parts are called train and eval, three train, val and eval, other numbers of parts have no names. -/
theorem C153_default_names (n : Nat) (ns : List Str) : defaultNames (some ns) n = some ns ∧
    defaultNames none 2 = some ["train".toList, "eval".toList] ∧ defaultNames none 3 = some ["train".toList, "val".toList, "eval".toList] ∧
    (n ≠ 2 → n ≠ 3 → defaultNames none n = none) := by
  refine ⟨rfl, rfl, rfl, fun h2 h3 => ?_⟩
  unfold defaultNames
  simp only [if_neg h2, if_neg h3]

/-! ### cases that meet the hypotheses -/

example : SepOk ' ' ∧ (' ').isAlpha = false := ⟨⟨by decide, by decide, by decide⟩, by decide⟩

/-- three segments, the last masked -/
example : ∃ l : PList Str, PList.make l.key l.part l.names l.mask = some l ∧ l.names = none ∧ l.part = [0, 1, -1] ∧
    (l.save ' ').1 = "a 0\nb 1\nc -1\n".toList ∧ partLoad (l.save ' ').1 ' ' = some ⟨["a".toList, "b".toList, "c".toList], [0, 1, -1], none, none⟩ :=
  ⟨⟨["a".toList, "b".toList, "c".toList], [0, 1, -1], none, some [true, true, false]⟩, by decide +kernel, rfl, rfl, by decide +kernel, by decide +kernel⟩

example : ∃ l : PList Str, PList.make l.key l.part l.names l.mask = some l ∧ l.names = defaultNames none 2 ∧
    (l.save ' ').1 = "a 0train\nb 1eval\n".toList ∧ partLoad (l.save ' ').1 ' ' = none :=
  ⟨⟨["a".toList, "b".toList], [0, 1], some ["train".toList, "eval".toList], none⟩, by decide +kernel, rfl, by decide +kernel, by decide +kernel⟩

example : foldLoad "0 a b\n1 c\n".toList ' ' = some ⟨["a b".toList, "c".toList], [0, 1], none, none⟩ := by decide +kernel

end Hyp.Folds
