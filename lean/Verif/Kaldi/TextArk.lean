import Verif.Kaldi.BatchProps
import Verif.Trials.TxtFile

/-!
Text mode of the ark writer and C135: /repo/hyperion/utils/kaldi_matrix.py:117-154, 174-189, 765-767 and
/repo/hyperion/io/ark_data_writer.py with `binary=False`. The readers are those of Kaldi/Ark.lean.
-/

namespace Hyp.Kaldi
open Hyp.Text

/-! ### writer -/

/-- kaldi_matrix.py:174-189 `KaldiMatrix.write(f, False)`; `fmt` is `'%f ' % x` without the blank. -/
def textBody (fmt : Dt → Bytes → Str) : Nd → Str
  | .vec dt els =>
    if els = [] then [' ', '[', ' ', ']', '\n']
    else [' ', '['] ++ ([' '] ++ els.flatMap (fun e => fmt dt e ++ [' '])) ++ [']', '\n']
  | .mat dt cols rows =>
    if cols = 0 then [' ', '[', ' ', ']', '\n']
    else [' ', '['] ++ rows.flatMap (fun r => ['\n', ' '] ++ r.flatMap (fun e => fmt dt e ++ [' '])) ++ [']', '\n']

/-- the array of a matrix object; kaldi_matrix.py:642-676 for a compressed one. -/
def KMat.toNd (D : Decoder) : KMat → Option Nd
  | .plain m => some m
  | .comp none => some (.mat .f32 0 [])
  | .comp (some d) => cmToNd D d

/-- `data_i.write(self.f, False)`: a compressed matrix is written uncompressed, kaldi_matrix.py:765-767. -/
def KMat.writeText (D : Decoder) (fmt : Dt → Bytes → Str) (m : KMat) : Option Bytes :=
  (m.toNd D).bind (fun v => encodeAscii (textBody fmt v))

/-- ark_data_writer.py:123-136 with `binary=False`: no marker. (Keys with characters outside ASCII are written in utf-8 and cannot be
read back; `isToken` refuses them in the model.) -/
def ArkWriter.writeOneText (D : Decoder) (fmt : Dt → Bytes → Str) (sep : Char) (path : Str) (w : ArkWriter) (r : Str × KMat) : Option ArkWriter :=
  if isToken r.1 then
    (writeToken r.1).bind (fun t => (r.2.writeText D fmt).map (fun m =>
      ⟨w.ark ++ t ++ m, w.script ++ scriptLine sep path r.1 (w.ark ++ t).length⟩))
  else none

/-- ark_data_writer.py:110-139 `write(keys, data)` with `binary=False`. -/
def ArkWriter.writeText (D : Decoder) (fmt : Dt → Bytes → Str) (sep : Char) (path : Str) (w : ArkWriter) (rs : List (Str × KMat)) : Option ArkWriter :=
  rs.foldlM (ArkWriter.writeOneText D fmt sep path) w

/-! ### specification -/

/-- the elements of an array. -/
def Nd.elems : Nd → List Bytes
  | .vec _ els => els
  | .mat _ _ rows => rows.flatten

/-- the numeral of an element is a word of ASCII characters which reads as `rt`. -/
def NumOk (D : Decoder) (fmt : Dt → Bytes → Str) (rt : Dt → Bytes → Bytes) (dt : Dt) (e : Bytes) : Prop :=
  fmt dt e ≠ [] ∧ (∀ c ∈ fmt dt e, c.toNat < 128 ∧ isSpace c = false) ∧ fmt dt e ≠ [']'] ∧ D.num (fmt dt e) = some (rt dt e)

/-- the array that text mode can store: rectangular, and not without rows but with columns. -/
def Nd.TextOk : Nd → Prop
  | .vec _ _ => True
  | .mat _ cols rows => (∀ r ∈ rows, r.length = cols) ∧ (rows = [] → cols = 0)

/-- what comes back: the same shape (an array without columns comes back as an empty vector), single precision, each element replaced by what its
numeral reads as. -/
def Nd.reread (rt : Dt → Bytes → Bytes) : Nd → Nd
  | .vec dt els => .vec .f32 (els.map (rt dt))
  | .mat dt cols rows => if cols = 0 then .vec .f32 [] else .mat .f32 cols (rows.map (fun r => r.map (rt dt)))

/-! ### lines -/

theorem linesB_flatten (s : Bytes) : (linesB s).flatten = s := by
  induction s with
  | nil => rfl
  | cons c s ih =>
    unfold linesB
    split
    · rw [List.flatten_cons, ih]; rfl
    · split
      · next h => rw [h] at ih; rw [← ih]; rfl
      · next l ls h =>
        rw [h] at ih
        rw [List.flatten_cons, List.cons_append, ← List.flatten_cons, ih]

theorem linesB_line {l : Bytes} (h : (10 : UInt8) ∉ l) (rest : Bytes) : linesB (l ++ 10 :: rest) = (l ++ [10]) :: linesB rest := by
  induction l with
  | nil => rfl
  | cons c l ih =>
    rw [List.mem_cons, not_or] at h
    rw [List.cons_append, linesB, if_neg (Ne.symm h.1), ih h.2]
    rfl

/-- the bytes of an ASCII text. -/
def toBytes (t : Str) : Bytes := t.map (fun c => UInt8.ofNat c.toNat)

theorem toBytes_append (a b : Str) : toBytes (a ++ b) = toBytes a ++ toBytes b := List.map_append

theorem encode_toBytes {t : Str} (h : ∀ c ∈ t, c.toNat < 128) : encodeAscii t = some (toBytes t) := by
  unfold encodeAscii
  rw [if_pos (by rw [List.all_eq_true]; intro c hc; exact decide_eq_true (h c hc))]
  rfl

theorem decode_toBytes {t : Str} (h : ∀ c ∈ t, c.toNat < 128) : decodeAscii (toBytes t) = some t := decode_encode (encode_toBytes h)

theorem toBytes_noNl {t : Str} (h : ∀ c ∈ t, c.toNat < 128) (hn : '\n' ∉ t) : (10 : UInt8) ∉ toBytes t := by
  intro hm
  obtain ⟨c, hc, he⟩ := List.mem_map.1 hm
  have h1 : (UInt8.ofNat c.toNat).toNat = 10 := by rw [he]; rfl
  have h2 : c.toNat < 128 := h c hc
  rw [UInt8.toNat_ofNat'] at h1
  have h3 : c.toNat = 10 := by omega
  apply hn
  have : c = '\n' := by
    apply Char.ext
    apply UInt32.toNat_inj.1
    exact h3
  rwa [← this]

/-- a line of text. -/
theorem linesB_text {t : Str} (h : ∀ c ∈ t, c.toNat < 128) (hn : '\n' ∉ t) (rest : Bytes) :
    linesB (toBytes (t ++ ['\n']) ++ rest) = toBytes (t ++ ['\n']) :: linesB rest := by
  have : toBytes (t ++ ['\n']) = toBytes t ++ [10] := by rw [toBytes_append]; rfl
  rw [this, List.append_assoc]
  exact linesB_line (toBytes_noNl h hn) rest

theorem splitWs_words (ws : List Str) (h : ∀ w ∈ ws, w ≠ [] ∧ ∀ c ∈ w, isSpace c = false) (rest : Str) :
    splitWs (ws.flatMap (fun w => w ++ [' ']) ++ rest) = ws ++ splitWs rest := by
  induction ws with
  | nil => rfl
  | cons w ws ih =>
    have hw := h w (List.mem_cons_self)
    rw [List.flatMap_cons, List.append_assoc, List.append_assoc, List.singleton_append, splitWs_cons (by decide) hw.1 hw.2,
      ih (fun x hx => h x (List.mem_cons_of_mem _ hx))]
    rfl

theorem flatMap_words {α : Type} (f : α → Str) (l : List α) : l.flatMap (fun e => f e ++ [' ']) = (l.map f).flatMap (fun w => w ++ [' ']) := by
  rw [List.flatMap_map]

theorem mapM_num {D : Decoder} {fmt : Dt → Bytes → Str} {rt : Dt → Bytes → Bytes} {dt : Dt} {r : List Bytes} (h : ∀ e ∈ r, NumOk D fmt rt dt e) :
    (r.map (fmt dt)).mapM (fun w : Str => D.num w) = some (r.map (rt dt)) := by
  rw [mapM_eq_some_iff, List.map_map, List.map_map]
  apply List.map_congr_left
  intro e he
  exact (h e he).2.2.2

theorem row_ascii {D : Decoder} {fmt : Dt → Bytes → Str} {rt : Dt → Bytes → Bytes} {dt : Dt} {r : List Bytes} (h : ∀ e ∈ r, NumOk D fmt rt dt e) :
    ∀ c ∈ r.flatMap (fun e => fmt dt e ++ [' ']), c.toNat < 128 ∧ c ≠ '\n' := by
  intro c hc
  obtain ⟨e, he, hce⟩ := List.mem_flatMap.1 hc
  rcases List.mem_append.1 hce with h1 | h1
  · have := (h e he).2.1 c h1
    refine ⟨this.1, ?_⟩
    rintro rfl
    exact absurd this.2 (by decide)
  · rw [List.mem_singleton] at h1
    rw [h1]
    exact ⟨by decide, by decide⟩

/-- the words of a line with the closing bracket. -/
theorem textArr_last {D : Decoder} {fmt : Dt → Bytes → Str} {rt : Dt → Bytes → Bytes} {dt : Dt} (isVec : Bool) (acc : List (List Bytes)) {r : List Bytes}
    (h : ∀ e ∈ r, NumOk D fmt rt dt e) :
    textArr D isVec acc (r.map (fmt dt) ++ [[']']]) = (stackRows isVec (acc ++ [r.map (rt dt)])).map Sum.inr := by
  unfold textArr
  rw [List.getLast?_append, List.getLast?_singleton, Option.some_or, if_pos rfl, List.dropLast_concat, mapM_num h]
  rfl

/-- the words of a line without it. -/
theorem textArr_more {D : Decoder} {fmt : Dt → Bytes → Str} {rt : Dt → Bytes → Bytes} {dt : Dt} (isVec : Bool) (acc : List (List Bytes)) {r : List Bytes}
    (hr : r ≠ []) (h : ∀ e ∈ r, NumOk D fmt rt dt e) :
    textArr D isVec acc (r.map (fmt dt)) = some (Sum.inl (acc ++ [r.map (rt dt)])) := by
  unfold textArr
  rw [if_neg, mapM_num h]
  · rfl
  · intro hl
    rw [List.getLast?_map, Option.map_eq_some_iff] at hl
    obtain ⟨e, he, h1⟩ := hl
    exact (h e (List.mem_of_getLast? he)).2.2.1 h1

/-- the text after the opening line of a matrix. -/
def rowsText (fmt : Dt → Bytes → Str) (dt : Dt) (r : List Bytes) (rs : List (List Bytes)) : Str :=
  [' '] ++ r.flatMap (fun e => fmt dt e ++ [' ']) ++ (rs.flatMap (fun r => ['\n', ' '] ++ r.flatMap (fun e => fmt dt e ++ [' '])) ++ [']', '\n'])

theorem splitWs_row {D : Decoder} {fmt : Dt → Bytes → Str} {rt : Dt → Bytes → Bytes} {dt : Dt} {r : List Bytes} (h : ∀ e ∈ r, NumOk D fmt rt dt e) (rest : Str) :
    splitWs ([' '] ++ r.flatMap (fun e => fmt dt e ++ [' ']) ++ rest) = r.map (fmt dt) ++ splitWs rest := by
  rw [List.append_assoc, List.singleton_append, splitWs_space (by decide), flatMap_words, splitWs_words]
  intro w hw
  obtain ⟨e, he, rfl⟩ := List.mem_map.1 hw
  exact ⟨(h e he).1, fun c hc => ((h e he).2.1 c hc).2⟩

theorem textRows_cons {D : Decoder} {isVec : Bool} {rows : List (List Bytes)} {l : Bytes} {ls : List Bytes} {t : Str} {arr : List Str}
    (h1 : decodeAscii l = some t) (h2 : splitWs t = arr) (h3 : arr ≠ []) :
    textRows D isVec rows (l :: ls) =
      (textArr D isVec rows arr).bind (fun x => match x with | .inr m => some (m, ls) | .inl rows' => textRows D isVec rows' ls) := by
  rw [textRows, h1]
  show (match splitWs t with | [] => _ | w :: ws => _) = _
  rw [h2]
  cases arr with
  | nil => exact absurd rfl h3
  | cons w ws =>
    show (match textArr D isVec rows (w :: ws) with | none => _ | some (.inr m) => _ | some (.inl rows') => _) = _
    rcases textArr D isVec rows (w :: ws) with _ | _ | _ <;> rfl

theorem textRows_rows {D : Decoder} {fmt : Dt → Bytes → Str} {rt : Dt → Bytes → Bytes} {dt : Dt} (rs : List (List Bytes)) (r : List Bytes)
    (hne : ∀ x ∈ r :: rs, x ≠ []) (h : ∀ x ∈ r :: rs, ∀ e ∈ x, NumOk D fmt rt dt e) (acc : List (List Bytes)) (rest : Bytes) :
    textRows D false acc (linesB (toBytes (rowsText fmt dt r rs) ++ rest)) =
      (stackRows false (acc ++ (r :: rs).map (fun x => x.map (rt dt)))).map (fun m => (m, linesB rest)) := by
  induction rs generalizing r acc with
  | nil =>
    have hr := h r List.mem_cons_self
    have e1 : rowsText fmt dt r [] = ([' '] ++ r.flatMap (fun e => fmt dt e ++ [' ']) ++ [']']) ++ ['\n'] := by
      unfold rowsText; simp
    have hasc : ∀ c ∈ [' '] ++ r.flatMap (fun e => fmt dt e ++ [' ']) ++ [']'], c.toNat < 128 ∧ c ≠ '\n' := by
      intro c hc
      rcases List.mem_append.1 hc with hc | hc
      · rcases List.mem_append.1 hc with hc | hc
        · rw [List.mem_singleton] at hc; rw [hc]; exact ⟨by decide, by decide⟩
        · exact row_ascii hr c hc
      · rw [List.mem_singleton] at hc; rw [hc]; exact ⟨by decide, by decide⟩
    rw [e1, linesB_text (fun c hc => (hasc c hc).1) (fun hm => (hasc _ hm).2 rfl)]
    rw [textRows_cons (t := [' '] ++ r.flatMap (fun e => fmt dt e ++ [' ']) ++ [']'] ++ ['\n']) (arr := r.map (fmt dt) ++ [[']']])]
    · rw [textArr_last false acc hr]
      show _ = (stackRows false (acc ++ [r.map (rt dt)])).map _
      cases stackRows false (acc ++ [r.map (rt dt)]) <;> rfl
    · apply decode_toBytes
      intro c hc
      rcases List.mem_append.1 hc with hc | hc
      · exact (hasc c hc).1
      · rw [List.mem_singleton] at hc; rw [hc]; decide
    · rw [List.append_assoc, splitWs_row hr]
      rfl
    · simp
  | cons r2 rs ih =>
    have hr := h r List.mem_cons_self
    have e1 : rowsText fmt dt r (r2 :: rs) = ([' '] ++ r.flatMap (fun e => fmt dt e ++ [' '])) ++ ['\n'] ++ rowsText fmt dt r2 rs := by
      unfold rowsText; simp
    have hasc : ∀ c ∈ [' '] ++ r.flatMap (fun e => fmt dt e ++ [' ']), c.toNat < 128 ∧ c ≠ '\n' := by
      intro c hc
      rcases List.mem_append.1 hc with hc | hc
      · rw [List.mem_singleton] at hc; rw [hc]; exact ⟨by decide, by decide⟩
      · exact row_ascii hr c hc
    rw [e1, toBytes_append, List.append_assoc, linesB_text (fun c hc => (hasc c hc).1) (fun hm => (hasc _ hm).2 rfl)]
    rw [textRows_cons (t := [' '] ++ r.flatMap (fun e => fmt dt e ++ [' ']) ++ ['\n']) (arr := r.map (fmt dt))]
    · rw [textArr_more false acc (hne r List.mem_cons_self) hr]
      show textRows D false (acc ++ [r.map (rt dt)]) _ = _
      rw [ih r2 (fun x hx => hne x (List.mem_cons_of_mem _ hx)) (fun x hx => h x (List.mem_cons_of_mem _ hx)), List.append_assoc]
      rfl
    · apply decode_toBytes
      intro c hc
      rcases List.mem_append.1 hc with hc | hc
      · exact (hasc c hc).1
      · rw [List.mem_singleton] at hc; rw [hc]; decide
    · rw [splitWs_row hr]
      show _ ++ [] = _
      rw [List.append_nil]
    · intro hm
      exact hne r List.mem_cons_self (List.map_eq_nil_iff.1 hm)

theorem stackRows_rect {isVec : Bool} {cols : Nat} {r : List Bytes} {rs : List (List Bytes)} (h : ∀ x ∈ r :: rs, x.length = cols) :
    stackRows isVec (r :: rs) = some (if isVec = true ∧ rs = [] then .vec .f32 r else .mat .f32 cols (r :: rs)) := by
  have h0 := h r List.mem_cons_self
  have hall : rs.all (fun x => decide (x.length = r.length)) = true := by
    rw [List.all_eq_true]
    intro x hx
    exact decide_eq_true (by rw [h x (List.mem_cons_of_mem _ hx), h0])
  show (if rs.all (fun x => decide (x.length = r.length)) = true then
      some (if isVec = true ∧ rs = [] then Nd.vec .f32 r else .mat .f32 r.length (r :: rs)) else none) = _
  rw [if_pos hall, h0]

theorem textFirst_cons {D : Decoder} {l : Bytes} {ls : List Bytes} {t : Str} {ws : List Str}
    (h1 : decodeAscii l = some t) (h2 : splitWs t = ['['] :: ws) :
    textFirst D (l :: ls) = if ws = [] then textRows D false [] ls
      else (textArr D true [] ws).bind (fun x => match x with | .inr m => some (m, ls) | .inl rows' => textRows D true rows' ls) := by
  rw [textFirst, h1]
  show (match splitWs t with | [] => _ | w :: ws => _) = _
  rw [h2]
  show (if (['['] : Str) = ['['] then _ else _) = _
  rw [if_pos rfl]
  by_cases hw : ws = []
  · rw [if_pos hw, if_pos hw]
  · rw [if_neg hw, if_neg hw]
    rcases textArr D true [] ws with _ | _ | _ <;> rfl

theorem lit1 : ∀ c ∈ ([' ', '['] : Str), c.toNat < 128 ∧ c ≠ '\n' := by decide
theorem lit2 : ∀ c ∈ ([' '] : Str), c.toNat < 128 ∧ c ≠ '\n' := by decide
theorem lit3 : ∀ c ∈ ([']'] : Str), c.toNat < 128 ∧ c ≠ '\n' := by decide
theorem lit4 : ∀ c ∈ ([']', '\n'] : Str), c.toNat < 128 := by decide
theorem lit5 : ∀ c ∈ (['\n', ' '] : Str), c.toNat < 128 := by decide

theorem textBody_mat (fmt : Dt → Bytes → Str) (dt : Dt) (cols : Nat) (rows : List (List Bytes)) : textBody fmt (.mat dt cols rows) =
    if cols = 0 then [' ', '[', ' ', ']', '\n']
    else [' ', '['] ++ rows.flatMap (fun r => ['\n', ' '] ++ r.flatMap (fun e => fmt dt e ++ [' '])) ++ [']', '\n'] := rfl

theorem textBody_vec (fmt : Dt → Bytes → Str) (dt : Dt) (els : List Bytes) : textBody fmt (.vec dt els) =
    if els = [] then [' ', '[', ' ', ']', '\n']
    else [' ', '['] ++ ([' '] ++ els.flatMap (fun e => fmt dt e ++ [' '])) ++ [']', '\n'] := rfl

theorem reread_mat (rt : Dt → Bytes → Bytes) (dt : Dt) (cols : Nat) (rows : List (List Bytes)) : (Nd.mat dt cols rows).reread rt =
    if cols = 0 then .vec .f32 [] else .mat .f32 cols (rows.map (fun r => r.map (rt dt))) := rfl

theorem textBody_ascii {D : Decoder} {fmt : Dt → Bytes → Str} {rt : Dt → Bytes → Bytes} {v : Nd} (h : ∀ e ∈ v.elems, NumOk D fmt rt v.dt e) :
    ∀ c ∈ textBody fmt v, c.toNat < 128 := by
  have hshort : ∀ c ∈ [' ', '[', ' ', ']', '\n'], c.toNat < 128 := by decide
  intro c hc
  cases v with
  | vec dt els =>
    rw [textBody_vec] at hc
    split at hc
    · exact hshort c hc
    · rcases List.mem_append.1 hc with hc | hc
      · rcases List.mem_append.1 hc with hc | hc
        · exact (lit1 c hc).1
        · rcases List.mem_append.1 hc with hc | hc
          · exact (lit2 c hc).1
          · exact (row_ascii (fun e he => h e he) c hc).1
      · exact lit4 c hc
  | mat dt cols rows =>
    rw [textBody_mat] at hc
    split at hc
    · exact hshort c hc
    · rcases List.mem_append.1 hc with hc | hc
      · rcases List.mem_append.1 hc with hc | hc
        · exact (lit1 c hc).1
        · obtain ⟨r, hr, hc⟩ := List.mem_flatMap.1 hc
          rcases List.mem_append.1 hc with hc | hc
          · exact lit5 c hc
          · exact (row_ascii (fun e he => h e (List.mem_flatten.2 ⟨r, hr, he⟩)) c hc).1
      · exact lit4 c hc

theorem textFirst_empty (D : Decoder) (rest : Bytes) :
    textFirst D (linesB (toBytes [' ', '[', ' ', ']', '\n'] ++ rest)) = some (.vec .f32 [], linesB rest) := by
  have : ([' ', '[', ' ', ']', '\n'] : Str) = [' ', '[', ' ', ']'] ++ ['\n'] := rfl
  rw [this, linesB_text (by decide) (by decide), textFirst_cons (t := [' ', '[', ' ', ']'] ++ ['\n']) (ws := [[']']]) (decode_toBytes (by decide)) (by decide),
    if_neg (by simp)]
  rfl

/-- **C135 (arrays).** Text mode: an array whose numerals are readable is read back - with the same shape and each number as its numeral reads - and the
reader is left exactly behind it, whatever follows in the file. -/
theorem C135_text_array (D : Decoder) (fmt : Dt → Bytes → Str) (rt : Dt → Bytes → Bytes) (v : Nd) (hv : v.TextOk)
    (h : ∀ e ∈ v.elems, NumOk D fmt rt v.dt e) :
    ∃ body, (KMat.plain v).writeText D fmt = some body ∧ ∀ rest, readText D 0 0 (body ++ rest) = some (v.reread rt, rest) := by
  refine ⟨toBytes (textBody fmt v), ?_, ?_⟩
  · show encodeAscii (textBody fmt v) = _
    exact encode_toBytes (textBody_ascii h)
  intro rest
  unfold readText
  rw [if_neg (by omega)]
  have hmain : textFirst D (linesB (toBytes (textBody fmt v) ++ rest)) = some (v.reread rt, linesB rest) := by
    cases v with
    | vec dt els =>
      by_cases he : els = []
      · subst he
        show textFirst D (linesB (toBytes [' ', '[', ' ', ']', '\n'] ++ rest)) = _
        rw [textFirst_empty]
        rfl
      · have hr : ∀ e ∈ els, NumOk D fmt rt dt e := fun e h1 => h e h1
        have e1 : textBody fmt (.vec dt els) = ([' ', '['] ++ ([' '] ++ els.flatMap (fun e => fmt dt e ++ [' ']) ++ [']'])) ++ ['\n'] := by
          rw [textBody_vec, if_neg he]
          simp
        have hasc : ∀ c ∈ [' ', '['] ++ ([' '] ++ els.flatMap (fun e => fmt dt e ++ [' ']) ++ [']']), c.toNat < 128 ∧ c ≠ '\n' := by
          intro c hc
          rcases List.mem_append.1 hc with hc | hc
          · exact lit1 c hc
          · rcases List.mem_append.1 hc with hc | hc
            · rcases List.mem_append.1 hc with hc | hc
              · exact lit2 c hc
              · exact row_ascii hr c hc
            · exact lit3 c hc
        rw [e1, linesB_text (fun c hc => (hasc c hc).1) (fun hm => (hasc _ hm).2 rfl)]
        rw [textFirst_cons (t := [' ', '['] ++ ([' '] ++ els.flatMap (fun e => fmt dt e ++ [' ']) ++ [']']) ++ ['\n']) (ws := els.map (fmt dt) ++ [[']']])]
        · rw [if_neg (by simp), textArr_last true [] hr, List.nil_append]
          rfl
        · apply decode_toBytes
          intro c hc
          rcases List.mem_append.1 hc with hc | hc
          · exact (hasc c hc).1
          · rw [List.mem_singleton] at hc; rw [hc]; decide
        · have e2 : [' ', '['] ++ ([' '] ++ els.flatMap (fun e => fmt dt e ++ [' ']) ++ [']']) ++ ['\n'] =
              ' ' :: (['['] ++ ' ' :: (els.flatMap (fun e => fmt dt e ++ [' ']) ++ [']', '\n'])) := by simp
          rw [e2, splitWs_space (by decide), splitWs_cons (by decide) (by simp) (by decide)]
          have e3 := splitWs_row hr [']', '\n']
          rw [List.append_assoc, List.singleton_append, splitWs_space (by decide)] at e3
          rw [e3]
          rfl
    | mat dt cols rows =>
      by_cases hc0 : cols = 0
      · subst hc0
        have e1 : textBody fmt (.mat dt 0 rows) = [' ', '[', ' ', ']', '\n'] := by rw [textBody_mat, if_pos rfl]
        rw [e1, textFirst_empty]
        rw [reread_mat, if_pos rfl]
      · rcases rows with _ | ⟨r, rs⟩
        · exact absurd (hv.2 rfl) hc0
        have hr : ∀ x ∈ r :: rs, ∀ e ∈ x, NumOk D fmt rt dt e := fun x hx e he => h e (List.mem_flatten.2 ⟨x, hx, he⟩)
        have hne : ∀ x ∈ r :: rs, x ≠ [] := by
          intro x hx h0
          have := hv.1 x hx
          rw [h0] at this
          exact hc0 this.symm
        have e1 : textBody fmt (.mat dt cols (r :: rs)) = ([' ', '['] ++ ['\n']) ++ rowsText fmt dt r rs := by
          rw [textBody_mat, if_neg hc0]
          unfold rowsText
          simp
        rw [e1, toBytes_append, List.append_assoc, linesB_text (by decide) (by decide),
          textFirst_cons (t := [' ', '['] ++ ['\n']) (ws := []) (decode_toBytes (by decide)) (by decide), if_pos rfl, textRows_rows rs r hne hr, List.nil_append,
          List.map_cons, stackRows_rect (cols := cols)]
        · rw [if_neg (by simp)]
          rw [reread_mat, if_neg hc0]
          rfl
        · intro x hx
          rw [← List.map_cons (f := fun x : List Bytes => x.map (rt dt))] at hx
          obtain ⟨y, hy, rfl⟩ := List.mem_map.1 hx
          rw [List.length_map]
          exact hv.1 y hy
  rw [hmain, Option.map_some, linesB_flatten]

end Hyp.Kaldi
