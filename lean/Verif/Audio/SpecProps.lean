import Verif.Audio.Model
import Verif.TextLemmas

/-! C128: what `read_wavspecifier` reads. -/

namespace Hyp.Audio
open Hyp.Text Hyp.Segments

variable {K : Type} [Field K] [LinearOrder K] [IsStrictOrderedRing K] [FloorRing K]

theorem rtake_append {α : Type} [DecidableEq α] {c : α} {a b : List α} (h : c ∉ b) :
    (a ++ c :: b).rtakeWhile (· != c) = b ∧ (a ++ c :: b).rdropWhile (· != c) = a ++ [c] := by
  induction b using List.reverseRecOn with
  | nil => simp [List.rtakeWhile_concat, List.rdropWhile_concat]
  | append_singleton b x ih =>
    simp only [List.mem_append, List.mem_singleton, not_or] at h
    obtain ⟨h1, h2⟩ := ih h.1
    have e : a ++ c :: (b ++ [x]) = (a ++ c :: b) ++ [x] := by simp
    have hx : x ≠ c := fun hh => h.2 hh.symm
    rw [e, List.rtakeWhile_concat, List.rdropWhile_concat]
    simp [hx, h1, h2]

theorem rtake_none {α : Type} [DecidableEq α] {c : α} {b : List α} (h : c ∉ b) : b.rtakeWhile (· != c) = b := by
  rw [List.rtakeWhile_eq_self_iff]
  intro x hx
  have : x ≠ c := fun hh => h (hh ▸ hx)
  simp [this]

/-- a list with `c` is cut at its last `c`. -/
theorem last_split {α : Type} {c : α} {p : List α} (h : c ∈ p) : ∃ a b, p = a ++ c :: b ∧ c ∉ b := by
  classical
  induction p using List.reverseRecOn with
  | nil => cases h
  | append_singleton p x ih =>
    by_cases hx : x = c
    · exact ⟨p, [], by simp [hx], by simp⟩
    · have : c ∈ p := by
        rcases List.mem_append.1 h with h | h
        · exact h
        · simp at h; exact absurd h.symm hx
      obtain ⟨a, b, rfl, hb⟩ := ih this
      refine ⟨a, b ++ [x], by simp, ?_⟩
      simp [hb, Ne.symm hx]

/-- every path is a directory part and a last component. -/
theorem base_split (p : Str) : ∃ dir, p = dir ++ baseName p ∧ (dir = [] ∨ dir.getLast? = some '/') ∧ '/' ∉ baseName p := by
  by_cases h : '/' ∈ p
  · obtain ⟨a, b, rfl, hb⟩ := last_split h
    have := (rtake_append (a := a) hb).1
    refine ⟨a ++ ['/'], ?_, Or.inr (by simp), ?_⟩
    · unfold baseName; rw [this]; simp
    · unfold baseName; rw [this]; exact hb
  · exact ⟨[], by unfold baseName; rw [rtake_none h]; rfl, Or.inl rfl, by unfold baseName; rw [rtake_none h]; exact h⟩

theorem baseName_append {dir b : Str} (hd : dir = [] ∨ dir.getLast? = some '/') (hb : '/' ∉ b) : baseName (dir ++ b) = b := by
  unfold baseName
  rcases hd with rfl | hd
  · exact rtake_none hb
  · obtain ⟨a, rfl⟩ : ∃ a, dir = a ++ ['/'] := by
      rw [List.getLast?_eq_some_iff] at hd
      exact hd
    rw [List.append_assoc]
    exact (rtake_append (a := a) hb).1

theorem splitExt_eq {dir stem e : Str} (hd : dir = [] ∨ dir.getLast? = some '/') (hs : '/' ∉ stem) (he : '/' ∉ e) (hdot : '.' ∉ e)
    (hc : ∃ c ∈ stem, c ≠ '.') : splitExt (dir ++ (stem ++ '.' :: e)) = '.' :: e := by
  unfold splitExt
  rw [baseName_append hd (by simp [hs, he])]
  obtain ⟨h1, h2⟩ := rtake_append (a := stem) hdot
  rw [h1, h2, if_pos]
  simp only [Bool.and_eq_true, List.contains_iff_mem, Bool.not_eq_true', List.all_eq_false]
  obtain ⟨c, hc, hne⟩ := hc
  exact ⟨by simp, c, by simp [hc], by simpa using hne⟩

theorem splitExt_some {p : Str} (h : splitExt p ≠ []) : ∃ dir stem e, p = dir ++ (stem ++ '.' :: e) ∧ (dir = [] ∨ dir.getLast? = some '/') ∧
    '/' ∉ stem ∧ '/' ∉ e ∧ '.' ∉ e ∧ (∃ c ∈ stem, c ≠ '.') ∧ splitExt p = '.' :: e := by
  obtain ⟨dir, hp, hd, hb⟩ := base_split p
  by_cases hdot : '.' ∈ baseName p
  · obtain ⟨stem, e, hse, he⟩ := last_split hdot
    rw [hse] at hb
    simp only [List.mem_append, List.mem_cons, not_or] at hb
    obtain ⟨h1, h2⟩ := rtake_append (a := stem) he
    by_cases hc : ∃ c ∈ stem, c ≠ '.'
    · refine ⟨dir, stem, e, hse ▸ hp, hd, hb.1, hb.2.2, he, hc, ?_⟩
      rw [hp, hse]
      exact splitExt_eq hd hb.1 hb.2.2 he hc
    · exfalso
      apply h
      unfold splitExt
      rw [if_neg]
      rw [hse, h2]
      push Not at hc
      simp only [Bool.and_eq_true, Bool.not_eq_true', not_and, Bool.not_eq_false]
      intro _
      rw [List.all_eq_true]
      intro c hcm
      rcases List.mem_append.1 hcm with hcm | hcm
      · simp [hc c hcm]
      · simpa using hcm
  · exfalso
    apply h
    unfold splitExt
    rw [if_neg]
    simp [hdot]

theorem lstrip_append {a t : Str} (ha : ∀ c ∈ a, isSpace c = true) (ht : ∀ c ∈ t.head?, isSpace c = false) : lstrip (a ++ t) = t := by
  unfold lstrip
  induction a with
  | nil =>
    cases t with
    | nil => rfl
    | cons c t => simp at ht; simp [ht]
  | cons c a ih =>
    rw [List.cons_append, List.dropWhile_cons_of_pos (ha c (by simp))]
    exact ih (fun c hc => ha c (by simp [hc]))

theorem strip_eq {a t b : Str} (ha : ∀ c ∈ a, isSpace c = true) (hb : ∀ c ∈ b, isSpace c = true) (ht : ∀ c ∈ t.head?, isSpace c = false)
    (hl : ∀ c ∈ t.getLast?, isSpace c = false) : strip (a ++ (t ++ b)) = t := by
  unfold strip
  by_cases h0 : t = []
  · subst h0
    have e : rstrip (a ++ ([] ++ b)) = [] := by
      have := rstrip_append (s := []) (t := a ++ b) (by
        intro c hc
        rcases List.mem_append.1 hc with h | h
        · exact ha c h
        · exact hb c h)
      simpa [rstrip] using this
    rw [e]; rfl
  · rw [← List.append_assoc, rstrip_append hb, rstrip_id, lstrip_append ha ht]
    intro c hc
    rw [List.getLast?_append] at hc
    obtain ⟨l, hl'⟩ := Option.ne_none_iff_exists'.1 (fun hh => h0 (List.getLast?_eq_none_iff.1 hh))
    rw [hl'] at hc
    simp at hc
    subst hc
    exact hl l hl'

theorem strip_split (s : Str) : ∃ a b, s = a ++ (strip s ++ b) ∧ (∀ c ∈ a, isSpace c = true) ∧ (∀ c ∈ b, isSpace c = true) ∧
    (∀ c ∈ (strip s).head?, isSpace c = false) ∧ (∀ c ∈ (strip s).getLast?, isSpace c = false) := by
  have h1 : rstrip s ++ s.rtakeWhile isSpace = s := List.rdropWhile_append_rtakeWhile ..
  have h2 : (rstrip s).takeWhile isSpace ++ lstrip (rstrip s) = rstrip s := List.takeWhile_append_dropWhile
  refine ⟨(rstrip s).takeWhile isSpace, s.rtakeWhile isSpace, ?_, ?_, ?_, ?_, ?_⟩
  · unfold strip
    rw [← List.append_assoc, h2, h1]
  · intro c hc
    exact List.mem_takeWhile_imp hc
  · intro c hc
    exact List.mem_rtakeWhile_imp hc
  · intro c hc
    unfold strip lstrip at hc
    have := List.head?_dropWhile_not isSpace (rstrip s)
    rw [Option.mem_def] at hc
    rw [hc] at this
    simpa using this
  · intro c hc
    have hc' : c ∈ (rstrip s).getLast? := by
      rw [← h2, List.getLast?_append]
      unfold strip at hc
      rw [Option.mem_def] at hc
      rw [hc]; simp
    unfold rstrip at hc'
    obtain ⟨l, hl⟩ := List.getLast?_eq_some_iff.1 hc'
    have hne : s.rdropWhile isSpace ≠ [] := by rw [hl]; simp
    have := List.rdropWhile_last_not isSpace s hne
    simp only [hl, List.getLast_append, List.getLast_singleton] at this
    simpa using this

/-- the extensions that are read. -/
def audioExtensions : List String :=
  ["wav", "flac", "ogg", "au", "avr", "caf", "htk", "iff", "mat", "mpc", "oga", "pvf", "rf64", "sd2", "sds", "sf", "voc", "wve", "xi"]

theorem validExt_iff (e : Str) : '.' :: e ∈ validExt ↔ String.ofList e ∈ audioExtensions := by
  have h : validExt.filter (fun x => x.head? == some '.') = audioExtensions.map (fun s => '.' :: s.toList) := by decide +kernel
  have h' : '.' :: e ∈ validExt ↔ '.' :: e ∈ validExt.filter (fun x => x.head? == some '.') := by simp
  rw [h', h, List.mem_map]
  constructor
  · rintro ⟨s, hs, he⟩
    simp only [List.cons.injEq, true_and] at he
    rw [← he]
    simpa using hs
  · intro hs
    exact ⟨_, hs, by simp⟩

/-- **C128.** Reading a wav specifier gives `y` iff, white space at the ends removed, it is a shell command followed by `|` that ends with
return code 0 and whose output is an audio file, or a path whose last component has (after something other than dots) one of the known
extensions, of a readable file; the samples are the ones of the file times the scale, the sampling frequency is the one of the file.
In all other cases there is an exception. -/
theorem C128_read_wavspecifier (w : World K) (scale : K) (spec : Str) (y : Wave K) :
    readSpec w scale spec = some y ↔
      ∃ a t b, spec = a ++ (t ++ b) ∧ (∀ c ∈ a, isSpace c = true) ∧ (∀ c ∈ b, isSpace c = true) ∧
        (∀ c ∈ t.head?, isSpace c = false) ∧ (∀ c ∈ t.getLast?, isSpace c = false) ∧
        ∃ x : Wave K, y = ⟨x.samples.map (fun v => v * scale), x.fs⟩ ∧
          ((∃ cmd, t = cmd ++ ['|'] ∧ w.pipe cmd = (0, some x)) ∨
           (∃ dir stem e, t = dir ++ (stem ++ '.' :: e) ∧ (dir = [] ∨ dir.getLast? = some '/') ∧ '/' ∉ stem ∧ '/' ∉ e ∧ '.' ∉ e ∧
              (∃ c ∈ stem, c ≠ '.') ∧ String.ofList e ∈ audioExtensions ∧ w.file t = some x)) := by
  constructor
  · intro h
    obtain ⟨a, b, e1, e2, e3, e4, e5⟩ := strip_split spec
    refine ⟨a, strip spec, b, e1, e2, e3, e4, e5, ?_⟩
    unfold readSpec at h
    generalize strip spec = t at *
    rcases hl : t.getLast? with _ | c
    · rw [hl] at h; cases h
    · rw [hl] at h
      dsimp only at h
      obtain ⟨t', rfl⟩ := List.getLast?_eq_some_iff.1 hl
      by_cases hc : c = '|'
      · subst hc
        rw [if_pos rfl] at h
        unfold readPipe at h
        simp only [List.dropLast_concat] at h
        rcases hp : w.pipe t' with ⟨rc, o⟩
        rw [hp] at h
        by_cases h0 : rc = 0
        · subst h0
          simp only [if_true, Option.map_eq_some_iff] at h
          obtain ⟨x, hx, rfl⟩ := h
          exact ⟨x, rfl, Or.inl ⟨t', rfl, by rw [hp, hx]⟩⟩
        · simp [h0] at h
      · rw [if_neg hc] at h
        by_cases hv : splitExt (t' ++ [c]) ∈ validExt
        · rw [if_pos hv, Option.map_eq_some_iff] at h
          obtain ⟨x, hx, rfl⟩ := h
          refine ⟨x, rfl, Or.inr ?_⟩
          obtain ⟨dir, stem, e, p1, p2, p3, p4, p5, p6, p7⟩ := splitExt_some (p := t' ++ [c]) (by
            intro h0; rw [h0] at hv; revert hv; decide)
          rw [p7, validExt_iff] at hv
          exact ⟨dir, stem, e, p1, p2, p3, p4, p5, p6, hv, hx⟩
        · rw [if_neg hv] at h; cases h
  · rintro ⟨a, t, b, rfl, ha, hb, h1, h2, x, rfl, h⟩
    unfold readSpec
    rw [strip_eq ha hb h1 h2]
    rcases h with ⟨cmd, rfl, hp⟩ | ⟨dir, stem, e, rfl, hd, q1, q2, q3, q4, q5, hf⟩
    · simp only [List.getLast?_append, List.getLast?_singleton, Option.some_or, if_true, List.dropLast_concat]
      unfold readPipe
      rw [hp]
      rfl
    · have hext := splitExt_eq hd q1 q2 q3 q4
      have hv := (validExt_iff e).2 q5
      have hlast : ∃ c, (dir ++ (stem ++ '.' :: e)).getLast? = some c ∧ c ≠ '|' := by
        have hall : ∀ s ∈ audioExtensions, ∃ c, s.toList.getLast? = some c ∧ c ≠ '|' := by decide +kernel
        obtain ⟨c, hc, hne⟩ := hall _ q5
        refine ⟨c, ?_, hne⟩
        rw [List.getLast?_append, List.getLast?_append, List.getLast?_cons]
        simp only [String.toList_ofList] at hc
        rw [hc]; rfl
      obtain ⟨c, hc, hne⟩ := hlast
      rw [hc]
      dsimp only
      rw [if_neg hne, hext, if_pos hv, hf]
      rfl

/-- C128 (a defect): the list of known extensions has `w64` without the dot: no such file is read. -/
theorem C128_w64_defect (w : World K) (scale : K) (dir stem : Str) (hd : dir = [] ∨ dir.getLast? = some '/') (hs : '/' ∉ stem)
    (hc : ∃ c ∈ stem, c ≠ '.') (hh : ∀ c ∈ (dir ++ stem).head?, isSpace c = false) :
    readSpec w scale (dir ++ (stem ++ ".w64".toList)) = none := by
  have hl : ".w64".toList = ['.', 'w', '6', '4'] := by decide
  rw [hl]
  have e : dir ++ (stem ++ ['.', 'w', '6', '4']) = [] ++ ((dir ++ (stem ++ ['.', 'w', '6', '4'])) ++ []) := by simp
  unfold readSpec
  rw [e, strip_eq (by simp) (by simp)]
  · have : (dir ++ (stem ++ ['.', 'w', '6', '4'])).getLast? = some '4' := by simp [List.getLast?_append]
    rw [this]
    dsimp only
    rw [if_neg (by decide), splitExt_eq hd hs (by decide) (by decide) hc, if_neg (by decide)]
  · obtain ⟨c, hc, _⟩ := hc
    have : dir ++ stem ≠ [] := by
      intro h
      simp only [List.append_eq_nil_iff] at h
      rw [h.2] at hc; cases hc
    intro c hc
    apply hh
    rw [← List.append_assoc, List.head?_append_of_ne_nil _ this] at hc
    exact hc
  · simp [List.getLast?_append]; decide

/-- C128 is not vacuous: a file and a command are read. -/
example : readSpec (K := ℚ) ⟨fun p => if p = "d/a.wav".toList then some ⟨[1, -2], 8000⟩ else none,
      fun _ => (1, none)⟩ 2 " d/a.wav\n".toList = some ⟨[2, -4], 8000⟩ ∧
    readSpec (K := ℚ) ⟨fun _ => none, fun c => if c = "cat a.sph ".toList then (0, some ⟨[3], 16000⟩) else (1, none)⟩ 2 "cat a.sph |".toList =
      some ⟨[6], 16000⟩ ∧
    readSpec (K := ℚ) ⟨fun _ => some ⟨[1], 8000⟩, fun _ => (0, some ⟨[3], 16000⟩)⟩ 2 "d.x/wav".toList = none := by decide +kernel

end Hyp.Audio
