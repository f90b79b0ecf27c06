import Verif.Segments.Opensat
import Verif.TextLemmas
import Mathlib.Tactic.Linarith

/-! Property C121: the speech intervals written for a binary VAD. -/

namespace Hyp.Opensat
open Hyp.Text

/-- what the loop leaves, as a recursion. -/
def go (n : Nat) : Nat → Bool → List Nat → List Interval
  | prev, s, [] => [⟨prev, n, s⟩]
  | prev, s, p :: ps => ⟨prev, p, s⟩ :: go n p (!s) ps

theorem fold_go (n : Nat) (ps : List Nat) (acc : List Interval) (prev : Nat) (s : Bool) :
    (ps.foldl intervalStep (acc, prev, s)).1 ++ [⟨(ps.foldl intervalStep (acc, prev, s)).2.1, n, (ps.foldl intervalStep (acc, prev, s)).2.2⟩] =
      acc ++ go n prev s ps := by
  induction ps generalizing acc prev s with
  | nil => rfl
  | cons p ps ih =>
    rw [List.foldl_cons]
    show _ = acc ++ (⟨prev, p, s⟩ :: go n p (!s) ps)
    rw [show acc ++ (⟨prev, p, s⟩ :: go n p (!s) ps) = (acc ++ [⟨prev, p, s⟩]) ++ go n p (!s) ps by simp]
    exact ih _ _ _

theorem mem_changePoints {vad : List Int} {p : Nat} : p ∈ changePoints vad ↔ p + 1 < vad.length ∧ vad.getD (p + 1) 0 ≠ vad.getD p 0 := by
  unfold changePoints
  rw [List.mem_filter, List.mem_range, decide_eq_true_eq]
  constructor
  · rintro ⟨a, b⟩
    exact ⟨by omega, by intro h; rw [h] at b; simp at b⟩
  · rintro ⟨a, b⟩
    exact ⟨by omega, by omega⟩

theorem changePoints_sorted (vad : List Int) : (changePoints vad).Pairwise (· < ·) := by
  unfold changePoints
  exact List.Pairwise.filter _ List.pairwise_lt_range

theorem bin2intervals_eq {vad : List Int} (h : vad ≠ []) : bin2intervals vad = some (go vad.length 0 (decide (vad.getD 0 0 = 1)) (changePoints vad)) := by
  cases vad with
  | nil => exact absurd rfl h
  | cons v rest =>
    unfold bin2intervals
    dsimp only
    rw [fold_go]
    rfl

theorem const_between {vad : List Int} {a b : Nat} (hb : b < vad.length) (h : ∀ q, a ≤ q → q < b → vad.getD (q + 1) 0 = vad.getD q 0) :
    ∀ c, a ≤ c → c ≤ b → vad.getD c 0 = vad.getD a 0 := by
  intro c hac hcb
  induction c, hac using Nat.le_induction with
  | base => rfl
  | succ c hc ih => rw [h c hc (by omega), ih (by omega)]

theorem go_spec {vad : List Int} (h01 : ∀ x ∈ vad, x = 0 ∨ x = 1) (ps : List Nat) (prev lo : Nat) (s : Bool) (hlo : lo < vad.length)
    (h1 : prev ≤ lo) (h2 : lo ≤ prev + 1) (hs : s = decide (vad.getD lo 0 = 1)) (hsort : ps.Pairwise (· < ·))
    (hps : ∀ p, p ∈ ps ↔ p ∈ changePoints vad ∧ lo ≤ p) :
    (∃ i rest, go vad.length prev s ps = i :: rest ∧ i.start = prev ∧ i.speech = s) ∧
    ((go vad.length prev s ps).getLast?.map Interval.stop = some vad.length) ∧
    (go vad.length prev s ps).IsChain (fun a b => a.stop = b.start ∧ b.speech = !a.speech) ∧
    (∀ i ∈ go vad.length prev s ps, i.start ≤ i.stop ∧ prev ≤ i.start) ∧
    (∀ i ∈ go vad.length prev s ps, ∀ f, i.start ≤ f → f < i.stop → i.speech = decide (vad.getD (min (f + 1) (vad.length - 1)) 0 = 1)) := by
  induction ps generalizing prev lo s with
  | nil =>
    have hc : ∀ c, lo ≤ c → c ≤ vad.length - 1 → vad.getD c 0 = vad.getD lo 0 := by
      apply const_between (by omega)
      intro q hq1 hq2
      by_contra hne
      have := (hps q).2 ⟨mem_changePoints.2 ⟨by omega, hne⟩, hq1⟩
      cases this
    refine ⟨⟨_, _, rfl, rfl, rfl⟩, rfl, List.IsChain.singleton _, ?_, ?_⟩
    · intro i hi
      simp only [go, List.mem_singleton] at hi
      subst hi
      exact ⟨show prev ≤ vad.length by omega, le_refl _⟩
    · intro i hi f hf1 hf2
      simp only [go, List.mem_singleton] at hi
      subst hi
      dsimp only at hf1 hf2 ⊢
      rw [hs, hc (min (f + 1) (vad.length - 1)) (by omega) (by omega)]
  | cons p ps ih =>
    obtain ⟨hcp, hlp⟩ := (hps p).1 (by simp)
    obtain ⟨hpn, hne⟩ := mem_changePoints.1 hcp
    have hc : ∀ c, lo ≤ c → c ≤ p → vad.getD c 0 = vad.getD lo 0 := by
      apply const_between (by omega)
      intro q hq1 hq2
      by_contra hne'
      have := (hps q).2 ⟨mem_changePoints.2 ⟨by omega, hne'⟩, hq1⟩
      rcases List.mem_cons.1 this with e | e
      · omega
      · have := (List.pairwise_cons.1 hsort).1 q e
        omega
    have hm : ∀ c, c < vad.length → vad.getD c 0 = 0 ∨ vad.getD c 0 = 1 := by
      intro c hc'
      have : vad.getD c 0 = vad[c] := by simp [List.getD, List.getElem?_eq_getElem hc']
      rw [this]; exact h01 _ (List.getElem_mem hc')
    have hs' : (!s) = decide (vad.getD (p + 1) 0 = 1) := by
      have e := hc p hlp (le_refl _)
      rw [hs, ← e]
      rcases hm p (by omega) with a | a <;> rcases hm (p + 1) hpn with b | b <;> rw [a, b] <;> first | rfl | (exfalso; rw [a, b] at hne; exact hne rfl)
    obtain ⟨⟨i, rest, e, e1, e2⟩, hl, hch, hbd, hlab⟩ := ih p (p + 1) (!s) hpn (by omega) (by omega) hs' (List.pairwise_cons.1 hsort).2 (by
      intro q
      constructor
      · intro hq
        exact ⟨((hps q).1 (by simp [hq])).1, (List.pairwise_cons.1 hsort).1 q hq⟩
      · rintro ⟨a, b⟩
        rcases List.mem_cons.1 ((hps q).2 ⟨a, by omega⟩) with e | e
        · omega
        · exact e)
    refine ⟨⟨_, _, rfl, rfl, rfl⟩, ?_, ?_, ?_, ?_⟩
    · show (⟨prev, p, s⟩ :: go vad.length p (!s) ps).getLast?.map Interval.stop = _
      rw [e] at hl ⊢
      rw [List.getLast?_cons_cons]; exact hl
    · show (⟨prev, p, s⟩ :: go vad.length p (!s) ps).IsChain _
      rw [e] at hch ⊢
      exact List.IsChain.cons_cons ⟨by rw [e1], by rw [e2]⟩ hch
    · intro j hj
      rcases List.mem_cons.1 hj with h | h
      · subst h; exact ⟨show prev ≤ p by omega, le_refl _⟩
      · have := hbd j h
        exact ⟨this.1, by omega⟩
    · intro j hj f hf1 hf2
      rcases List.mem_cons.1 hj with h | h
      · subst h
        dsimp only at hf1 hf2 ⊢
        rw [hs, hc (min (f + 1) (vad.length - 1)) (by omega) (by omega)]
      · exact hlab j h f hf1 hf2

/-- C121. For every non-empty 0/1 VAD of `n` frames the intervals written start at 0, end at `n`, follow each other without gap or overlap, alternate between
speech and non-speech, and the interval that contains frame `f` carries the label of frame `f + 1` (of the last frame for the last one). An empty VAD raises. -/
theorem C121_intervals (vad : List Int) (h01 : ∀ x ∈ vad, x = 0 ∨ x = 1) :
    (vad = [] → bin2intervals vad = none) ∧
    (vad ≠ [] → ∃ l, bin2intervals vad = some l ∧
      (l.head?.map Interval.start = some 0) ∧ (l.getLast?.map Interval.stop = some vad.length) ∧
      l.IsChain (fun a b => a.stop = b.start ∧ b.speech = !a.speech) ∧ (∀ i ∈ l, i.start ≤ i.stop) ∧
      ∀ i ∈ l, ∀ f, i.start ≤ f → f < i.stop → (i.speech = true ↔ vad[min (f + 1) (vad.length - 1)]? = some 1)) := by
  constructor
  · rintro rfl; rfl
  · intro hne
    have hpos : 0 < vad.length := List.length_pos_of_ne_nil hne
    obtain ⟨⟨i, rest, e, e1, _⟩, hl, hch, hbd, hlab⟩ := go_spec h01 (changePoints vad) 0 0 (decide (vad.getD 0 0 = 1)) hpos (le_refl _) (by omega) rfl
      (changePoints_sorted vad) (by intro p; simp)
    refine ⟨_, bin2intervals_eq hne, ?_, hl, hch, fun i hi => (hbd i hi).1, ?_⟩
    · rw [e]; simp [e1]
    · intro j hj f hf1 hf2
      rw [hlab j hj f hf1 hf2, decide_eq_true_eq]
      have : min (f + 1) (vad.length - 1) < vad.length := by omega
      simp [List.getD, List.getElem?_eq_getElem this]

/-- the frames that belong to a speech interval. -/
theorem cover {l : List Interval} (hch : l.IsChain (fun a b => a.stop = b.start ∧ b.speech = !a.speech)) (hle : ∀ i ∈ l, i.start ≤ i.stop) {n f a : Nat}
    (hh : l.head?.map Interval.start = some a) (hl : l.getLast?.map Interval.stop = some n) (ha : a ≤ f) (hf : f < n) : ∃ i ∈ l, i.start ≤ f ∧ f < i.stop := by
  induction l generalizing a with
  | nil => simp at hh
  | cons x l ih =>
    simp at hh
    cases l with
    | nil =>
      simp at hl
      exact ⟨x, by simp, by omega, by omega⟩
    | cons y l =>
      by_cases h : f < x.stop
      · exact ⟨x, by simp, by omega, h⟩
      · rw [List.isChain_cons_cons] at hch
        obtain ⟨i, hi, h1⟩ := ih (a := y.start) hch.2 (fun i hi => hle i (by simp [hi])) (by simp) (by simpa [List.getLast?_cons_cons] using hl)
          (by have := hch.1.1; omega)
        exact ⟨i, by simp [hi], h1⟩

/-- C121. Every frame belongs to an interval, so the file determines a label for every frame; it is the label of the following frame (a defect: every speech region
is written one frame early). -/
theorem C121_label_shift (vad : List Int) (h01 : ∀ x ∈ vad, x = 0 ∨ x = 1) (f : Nat) (hf : f < vad.length) :
    ∃ l, bin2intervals vad = some l ∧ (∃ i ∈ l, i.start ≤ f ∧ f < i.stop) ∧
      ((∃ i ∈ l, i.start ≤ f ∧ f < i.stop ∧ i.speech = true) ↔ vad[min (f + 1) (vad.length - 1)]? = some 1) := by
  have hne : vad ≠ [] := by rintro rfl; simp at hf
  obtain ⟨l, e, hh, hl, hch, hle, hlab⟩ := (C121_intervals vad h01).2 hne
  obtain ⟨i, hi, h1, h2⟩ := cover hch hle hh hl (Nat.zero_le f) hf
  refine ⟨l, e, ⟨i, hi, h1, h2⟩, ?_⟩
  constructor
  · rintro ⟨j, hj, a, b, c⟩
    exact (hlab j hj f a b).1 c
  · intro h
    exact ⟨i, hi, h1, h2, (hlab i hi f h1 h2).2 h⟩

/-- C121 (a defect): frames 2 and 3 are speech, the file says frames 1 and 2. -/
theorem C121_one_frame_early : bin2intervals [0, 0, 1, 1, 0, 0] = some [⟨0, 1, false⟩, ⟨1, 3, true⟩, ⟨3, 6, false⟩] := by decide +kernel

/-- C121 (a defect): an isolated first frame gives an interval of no duration. -/
theorem C121_empty_first_interval : bin2intervals [1, 0, 0] = some [⟨0, 0, true⟩, ⟨0, 3, false⟩] := by decide +kernel

theorem digitChar_ne {d : Nat} (h : d < 10) (c : Char) (hc : c = '\t' ∨ c = '\n' ∨ c = '\r') : digitChar d ≠ c := by
  have : ∀ d < 10, ∀ c ∈ ['\t', '\n', '\r'], digitChar d ≠ c := by decide
  exact this d h c (by simpa using hc)

theorem hundredths_ne (k : Nat) (c : Char) (hc : c = '\t' ∨ c = '\n' ∨ c = '\r') : c ∉ printHundredths k := by
  unfold printHundredths
  rw [List.mem_append, not_or]
  refine ⟨not_mem_printNat (by rcases hc with rfl | rfl | rfl <;> decide), ?_⟩
  simp only [List.mem_cons, List.not_mem_nil, or_false, not_or]
  exact ⟨by rcases hc with rfl | rfl | rfl <;> decide, fun h => digitChar_ne (by omega) c hc h.symm, fun h => digitChar_ne (by omega) c hc h.symm⟩

theorem line_eq (key : Str) (i : Interval) : opensatLine key i ++ ['\n'] = ['X'] ++ '\t' :: (['X'] ++ '\t' :: (['X'] ++ '\t' :: (['S', 'A', 'D'] ++ '\t' :: (key ++ '\t' ::
        (printHundredths i.start ++ '\t' :: (printHundredths i.stop ++ '\t' ::
          ((if i.speech then "speech".toList else "non-speech".toList) ++ '\t' :: ['1', '.', '0', '0', '\n']))))))) := by
  have e : "X\tX\tX\tSAD\t".toList = ['X', '\t', 'X', '\t', 'X', '\t', 'S', 'A', 'D', '\t'] := by decide
  have e' : "1.00".toList = ['1', '.', '0', '0'] := by decide
  unfold opensatLine
  rw [e, e']
  generalize printHundredths i.start = a
  generalize printHundredths i.stop = b
  generalize (if i.speech then "speech".toList else "non-speech".toList) = c
  simp only [List.cons_append, List.append_assoc, List.nil_append]

/-- C121. The file has one line per interval, with nine fields separated by tabs; the times are the frame numbers divided by one hundred, with two decimals. -/
theorem C121_file (key : Str) (hk : ∀ c ∈ key, c ≠ '\t' ∧ c ≠ '\n' ∧ c ≠ '\r') (vad : List Int) (l : List Interval) (h : bin2intervals vad = some l) :
    ∃ content, writeOpensat key vad = some content ∧
      (fileLines content).map (fun line => splitAll '\t' line) = l.map (fun i => ["X".toList, "X".toList, "X".toList, "SAD".toList, key,
        printNat (i.start / 100) ++ '.' :: [digitChar (i.start / 10 % 10), digitChar (i.start % 10)],
        printNat (i.stop / 100) ++ '.' :: [digitChar (i.stop / 10 % 10), digitChar (i.stop % 10)],
        if i.speech then "speech".toList else "non-speech".toList, "1.00\n".toList]) := by
  refine ⟨_, by rw [writeOpensat, h]; rfl, ?_⟩
  have e : l.flatMap (fun i => opensatLine key i ++ ['\n']) = (l.map (opensatLine key)).flatMap (fun x => x ++ ['\n']) := by
    rw [List.flatMap_map]
  dsimp only
  rw [e, fileLines_join, List.map_map, List.map_map]
  · apply List.map_congr_left
    intro i _
    simp only [Function.comp]
    have ht : ∀ k, '\t' ∉ printHundredths k := fun k => hundredths_ne k _ (Or.inl rfl)
    have h10 : ∀ k, k % 100 / 10 = k / 10 % 10 := by intro k; omega
    have e2 := line_eq key i
    rw [e2, splitAll_append (by decide), splitAll_append (by decide), splitAll_append (by decide), splitAll_append (by decide),
      splitAll_append (fun hm => (hk _ hm).1 rfl), splitAll_append (ht _), splitAll_append (ht _), splitAll_append (by split <;> decide), splitAll_noSep (by decide)]
    have x1 : "X".toList = ['X'] := by decide
    have x2 : "SAD".toList = ['S', 'A', 'D'] := by decide
    have x3 : "1.00\n".toList = ['1', '.', '0', '0', '\n'] := by decide
    rw [x1, x2, x3]
    simp only [printHundredths, h10]
  · intro x hx
    obtain ⟨i, _, rfl⟩ := List.mem_map.1 hx
    have hs : ∀ b : Bool, ∀ c ∈ ['\n', '\r'], c ∉ (if b then "speech".toList else "non-speech".toList) := by decide
    have key1 : ∀ c : Char, (c = '\n' ∨ c = '\r') → c ∉ opensatLine key i := by
      intro c hc hm
      have hh : ∀ k, c ∉ printHundredths k := fun k => hundredths_ne k c (Or.inr hc)
      have hck : c ∉ key := by
        intro hm'
        rcases hc with rfl | rfl
        · exact (hk _ hm').2.1 rfl
        · exact (hk _ hm').2.2 rfl
      have hsp := hs i.speech c (by simpa using hc)
      have h1 : c ∉ "X\tX\tX\tSAD\t".toList := by rcases hc with rfl | rfl <;> decide
      have h2 : c ∉ "1.00".toList := by rcases hc with rfl | rfl <;> decide
      have h3 : c ≠ '\t' := by rcases hc with rfl | rfl <;> decide
      unfold opensatLine at hm
      rcases List.mem_append.1 hm with hm | hm
      · rcases List.mem_append.1 hm with hm | hm
        · exact h1 hm
        · exact hck hm
      · rcases List.mem_cons.1 hm with hm | hm
        · exact h3 hm
        · rcases List.mem_append.1 hm with hm | hm
          · exact hh _ hm
          · rcases List.mem_cons.1 hm with hm | hm
            · exact h3 hm
            · rcases List.mem_append.1 hm with hm | hm
              · exact hh _ hm
              · rcases List.mem_cons.1 hm with hm | hm
                · exact h3 hm
                · rcases List.mem_append.1 hm with hm | hm
                  · exact hsp hm
                  · rcases List.mem_cons.1 hm with hm | hm
                    · exact h3 hm
                    · exact h2 hm
    exact ⟨key1 _ (Or.inl rfl), key1 _ (Or.inr rfl)⟩

/-- a case: the file written for `[0, 1, 1]` and key `a`. -/
example : writeOpensat ['a'] [0, 1, 1] = some "X\tX\tX\tSAD\ta\t0.00\t0.00\tnon-speech\t1.00\nX\tX\tX\tSAD\ta\t0.00\t0.03\tspeech\t1.00\n".toList := by decide +kernel

end Hyp.Opensat
