import Verif.Text
import Mathlib.Data.List.DropRight
import Mathlib.Tactic.IntervalCases

namespace Hyp.Text

theorem digitChar_toNat {d : Nat} (h : d < 10) : (digitChar d).toNat = 48 + d := by
  interval_cases d <;> rfl

theorem digitVal_digitChar {d : Nat} (h : d < 10) : digitVal (digitChar d) = some d := by
  unfold digitVal; rw [digitChar_toNat h, if_pos (by omega)]; congr 1; omega

theorem isSpace_digitChar {d : Nat} (h : d < 10) : isSpace (digitChar d) = false := by
  interval_cases d <;> decide

theorem printNat_ne_nil (n : Nat) : printNat n ≠ [] := by
  unfold printNat; split <;> simp

theorem mem_printNat {n : Nat} {c : Char} (h : c ∈ printNat n) : ∃ d, d < 10 ∧ c = digitChar d := by
  induction n using Nat.strong_induction_on with
  | _ n ih =>
    unfold printNat at h
    split at h
    · rename_i hn; simp at h; exact ⟨n, hn, h⟩
    · rw [List.mem_append] at h
      rcases h with h | h
      · exact ih (n / 10) (by omega) h
      · simp at h; exact ⟨n % 10, by omega, h⟩

theorem foldl_digits (a b : Str) (x : Option Nat) :
    (a ++ b).foldl (fun acc c => acc.bind (fun n => (digitVal c).map (fun d => 10 * n + d))) x =
    b.foldl (fun acc c => acc.bind (fun n => (digitVal c).map (fun d => 10 * n + d)))
      (a.foldl (fun acc c => acc.bind (fun n => (digitVal c).map (fun d => 10 * n + d))) x) :=
  List.foldl_append

theorem foldl_printNat (n : Nat) :
    (printNat n).foldl (fun acc c => acc.bind (fun n => (digitVal c).map (fun d => 10 * n + d))) (some 0)
      = some n := by
  induction n using Nat.strong_induction_on with
  | _ n ih =>
    rw [printNat]
    split
    · rename_i hn; simp [digitVal_digitChar hn]
    · rw [List.foldl_append, ih (n / 10) (by omega)]
      have hd : n % 10 < 10 := by omega
      simp [digitVal_digitChar hd]; omega

/-- `int('%d' % n) = n`. -/
@[simp] theorem parseNat_printNat (n : Nat) : parseNat (printNat n) = some n := by
  unfold parseNat
  rw [if_neg (by simp [printNat_ne_nil]), foldl_printNat]

@[simp] theorem isDecimal_printNat (n : Nat) : isDecimal (printNat n) = true := by
  unfold isDecimal
  simp only [Bool.and_eq_true, List.all_eq_true]
  refine ⟨by simp [printNat_ne_nil], ?_⟩
  intro c hc
  obtain ⟨d, hd, rfl⟩ := mem_printNat hc
  simp [digitVal_digitChar hd]

theorem printNat_inj {m n : Nat} (h : printNat m = printNat n) : m = n := by
  have := parseNat_printNat m; rw [h, parseNat_printNat] at this; exact (Option.some.inj this).symm

/-- a digit is none of the characters used as separators. -/
theorem not_mem_printNat {n : Nat} {c : Char} (h : (digitVal c) = none) : c ∉ printNat n := by
  intro hc
  obtain ⟨d, hd, rfl⟩ := mem_printNat hc
  rw [digitVal_digitChar hd] at h; simp at h

theorem splitOnce_none {sep : Char} {s : Str} (h : sep ∉ s) : splitOnce sep s = none := by
  induction s with
  | nil => rfl
  | cons c cs ih =>
    simp at h
    simp [splitOnce, ih h.2, Ne.symm h.1]

theorem splitOnce_append {sep : Char} {a b : Str} (h : sep ∉ a) :
    splitOnce sep (a ++ sep :: b) = some (a, b) := by
  induction a with
  | nil => simp [splitOnce]
  | cons c cs ih =>
    simp at h
    simp [splitOnce, ih h.2, Ne.symm h.1]

theorem splitAll_ne_nil (sep : Char) (s : Str) : splitAll sep s ≠ [] := by
  cases s with
  | nil => simp [splitAll]
  | cons c cs =>
    unfold splitAll; split
    · simp
    · split <;> simp

theorem splitAll_noSep {sep : Char} {s : Str} (h : sep ∉ s) : splitAll sep s = [s] := by
  induction s with
  | nil => rfl
  | cons c cs ih =>
    simp at h
    simp [splitAll, ih h.2, Ne.symm h.1]

theorem splitAll_append {sep : Char} {a b : Str} (h : sep ∉ a) :
    splitAll sep (a ++ sep :: b) = a :: splitAll sep b := by
  induction a with
  | nil => simp [splitAll]
  | cons c cs ih =>
    simp at h
    simp [splitAll, ih h.2, Ne.symm h.1]

theorem splitWsAux_word {w rest acc : Str} (h : ∀ c ∈ w, isSpace c = false) :
    splitWsAux (w ++ rest) acc = splitWsAux rest (acc ++ w) := by
  induction w generalizing acc with
  | nil => simp
  | cons c cs ih =>
    simp at h
    have : splitWsAux (c :: cs ++ rest) acc = splitWsAux (cs ++ rest) (acc ++ [c]) := by
      simp [splitWsAux, h.1]
    rw [this, ih h.2]; simp

theorem splitWs_one {w : Str} (hw : w ≠ []) (h : ∀ c ∈ w, isSpace c = false) : splitWs w = [w] := by
  unfold splitWs
  have := splitWsAux_word (w := w) (rest := []) (acc := []) h
  rw [List.append_nil] at this; rw [this]; simp [splitWsAux, hw]

theorem splitWs_cons {w rest : Str} {s : Char} (hs : isSpace s = true) (hw : w ≠ [])
    (h : ∀ c ∈ w, isSpace c = false) : splitWs (w ++ s :: rest) = w :: splitWs rest := by
  unfold splitWs
  rw [splitWsAux_word h]; simp [splitWsAux, hs, hw]

theorem splitWs_space {rest : Str} {s : Char} (hs : isSpace s = true) :
    splitWs (s :: rest) = splitWs rest := by
  unfold splitWs; simp [splitWsAux, hs]

theorem universalNewlines_id {s : Str} (h : '\r' ∉ s) : universalNewlines s = s := by
  induction s with
  | nil => rfl
  | cons c cs ih =>
    simp at h
    have hc : c ≠ '\r' := Ne.symm h.1
    rw [universalNewlines.eq_def]
    split
    · rename_i h1; simp at h1
    · rename_i h1; simp at h1; exact absurd h1.1 hc
    · rename_i h1; simp at h1; exact absurd h1.1 hc
    · rename_i c' cs' h1; simp at h1; rw [← h1.1, ← h1.2, ih h.2]

theorem linesKeep_line {l rest : Str} (h : '\n' ∉ l) :
    linesKeep (l ++ '\n' :: rest) = (l ++ ['\n']) :: linesKeep rest := by
  induction l with
  | nil => simp [linesKeep]
  | cons c cs ih =>
    simp at h
    simp [linesKeep, ih h.2, Ne.symm h.1]

/-- reading back a file written line by line -/
theorem fileLines_join {ls : List Str} (h : ∀ l ∈ ls, '\n' ∉ l ∧ '\r' ∉ l) :
    fileLines (ls.flatMap (fun l => l ++ ['\n'])) = ls.map (fun l => l ++ ['\n']) := by
  unfold fileLines
  rw [universalNewlines_id]
  · induction ls with
    | nil => rfl
    | cons l ls ih =>
      simp only [List.flatMap_cons, List.append_assoc, List.singleton_append]
      rw [linesKeep_line (h l (by simp)).1, ih (fun x hx => h x (by simp [hx]))]
      rfl
  · intro hr
    rw [List.mem_flatMap] at hr
    obtain ⟨l, hl, hc⟩ := hr
    rw [List.mem_append] at hc
    rcases hc with hc | hc
    · exact (h l hl).2 hc
    · simp at hc

theorem rstrip_append {s t : Str} (h : ∀ c ∈ t, isSpace c = true) : rstrip (s ++ t) = rstrip s := by
  unfold rstrip
  induction t using List.reverseRecOn with
  | nil => simp
  | append_singleton xs x ih =>
    rw [← List.append_assoc, List.rdropWhile_concat_pos _ _ _ (h x (by simp))]
    exact ih (fun c hc => h c (by simp [hc]))

theorem rstrip_id {s : Str} (h : ∀ c ∈ s.getLast?, isSpace c = false) : rstrip s = s := by
  unfold rstrip
  induction s using List.reverseRecOn with
  | nil => rfl
  | append_singleton xs x _ =>
    rw [List.rdropWhile_concat_neg]; have := h x (by simp); simp [this]

theorem rstrip_line {s : Str} (h : ∀ c ∈ s.getLast?, isSpace c = false) : rstrip (s ++ ['\n']) = s := by
  rw [rstrip_append (by simp; decide), rstrip_id h]

theorem rstripChar_append {c : Char} {s : Str} (h : c ∉ s) : rstripChar c (s ++ [c]) = s := by
  unfold rstripChar
  rw [List.rdropWhile_concat_pos _ _ _ (by simp)]
  induction s using List.reverseRecOn with
  | nil => rfl
  | append_singleton xs x _ =>
    rw [List.rdropWhile_concat_neg]; simp at h ⊢; exact Ne.symm h.2

end Hyp.Text
