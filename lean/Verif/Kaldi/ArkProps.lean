import Verif.Kaldi.Ark
import Verif.Kaldi.CmProps
import Verif.Scp.TextProps

/-! Properties C22, C23 and C24: archives. -/

namespace Hyp.Kaldi
open Hyp.Text

/-! ### specification -/

/-- the array a stored matrix object stands for. -/
inductive KMat.Value (D : Decoder) : KMat → Nd → Prop
  | plain (m : Nd) : m.WF → (m.dt = .f32 ∨ m.dt = .f64) → m.SizesOk → KMat.Value D (.plain m) m
  | comp (a : CmAttrs) (d : Bytes) : a.WF → cmBuild a = some d →
      KMat.Value D (.comp (some d)) (.mat .f32 a.cols (a.codes.map (a.decodeRow D)))
  | empty : KMat.Value D (.comp none) (.mat .f32 0 [])

/-- rows `off..off+n` (`n = 0`: to the end) of an array. -/
def Nd.slice : Nd → Nat → Nat → Nd
  | .vec dt els, _, _ => .vec dt els
  | .mat dt cols rows, off, n => .mat dt cols (if n = 0 then rows.drop off else (rows.drop off).take n)

/-- the range lies in the array (a vector can only be read whole). -/
def Nd.RangeOk : Nd → Nat → Nat → Prop
  | .vec _ els, off, n => off = 0 ∧ (n = 0 ∨ n = els.length)
  | .mat _ _ rows, off, n => off + n ≤ rows.length

theorem Nd.slice_zero (v : Nd) : v.slice 0 0 = v := by cases v <;> simp [Nd.slice]

theorem Nd.rangeOk_zero (v : Nd) : v.RangeOk 0 0 := by cases v <;> simp [Nd.RangeOk]

/-! ### a stored matrix -/

/-- `body` is a stored form of the array `v`. -/
def Stored (D : Decoder) (v : Nd) (body : Bytes) : Prop :=
  ∀ (pk : Peek) (off n : Nat) (rest : Bytes), v.RangeOk off n →
    readMat pk D off n true (body ++ rest) = some (v.slice off n, rest) ∧
    (readMat pk D off n false (body ++ rest)).map (·.1) = some (v.slice off n)

theorem value_stored {D : Decoder} {km : KMat} {v : Nd} (h : km.Value D v) :
    ∃ body, km.write = some body ∧ Stored D v body := by
  have hcomp : ∀ a d, CmAttrs.WF a → cmBuild a = some d → ∃ body, cmWrite (some d) = some body ∧
      Stored D (.mat .f32 a.cols (a.codes.map (a.decodeRow D))) body := by
    intro a d hwf hd
    obtain ⟨out, full, ho, hfull, hr⟩ := C21_row_range_compressed D a hwf d hd
    rw [cmToNd_build D hwf hd] at hfull
    simp only [Option.some.injEq, Nd.mat.injEq, true_and] at hfull
    refine ⟨out, ho, fun pk off n rest hrange => ?_⟩
    have hle : off + n ≤ a.codes.length := by simpa [Nd.RangeOk] using hrange
    have h1 := ((hr pk off n true rest).1 hle).2
    have h2 := ((hr pk off n false rest).1 hle).2
    rw [← hfull] at h1 h2
    exact ⟨h1, by rw [h2]; rfl⟩
  cases h with
  | plain _ hwf hdt hsz =>
    obtain ⟨out, ho, hr⟩ := C20_matrix_round_trip D v hwf hdt hsz
    refine ⟨out, ho, fun pk off n rest hrange => ?_⟩
    cases v with
    | vec dt els =>
      obtain ⟨rfl, hn⟩ := hrange
      have hp := peek_writeMat pk ho rest
      unfold readMat
      rw [if_neg hp, if_neg hp, readPlain_vec pk hdt hwf ho n true rest, readPlain_vec pk hdt hwf ho n false rest]
      exact ⟨rfl, rfl⟩
    | mat dt cols rows =>
      exact (C21_row_range D dt hdt cols rows hwf out ho pk off n rest).1 hrange
  | comp a d hwf hd => exact hcomp a d hwf hd
  | empty =>
    have hwf : CmAttrs.WF ⟨1, [0, 0, 0, 0], [0, 0, 0, 0], some [], 0, []⟩ :=
      ⟨Or.inl rfl, rfl, rfl, by decide, by decide, by decide, by decide, by simp⟩
    obtain ⟨body, hb, hs⟩ := hcomp _ ([1, 0, 0, 0] ++ List.replicate 16 0) hwf (by decide)
    refine ⟨body, ?_, hs⟩
    rw [← hb]; decide

theorem Nd.dim0_slice {v : Nd} {off n : Nat} (h : v.RangeOk off n) : n = 0 ∨ (v.slice off n).dim0 = n := by
  cases v with
  | vec dt els => rcases h.2 with h | h <;> simp [Nd.slice, Nd.dim0, h]
  | mat dt cols rows =>
    have h : off + n ≤ rows.length := h
    by_cases hn : n = 0
    · exact Or.inl hn
    · right
      simp [Nd.slice, Nd.dim0, hn]; omega

theorem readRecord_stored {D : Decoder} {v : Nd} {body : Bytes} (h : Stored D v body) (pk : Peek) (tr : Nd → Nd)
    {off n : Nat} (hr : v.RangeOk off n) (rest : Bytes) :
    readRecord pk D tr off n true (binMarker ++ body ++ rest) = some (tr (v.slice off n), rest) ∧
    (readRecord pk D tr off n false (binMarker ++ body ++ rest)).map (·.1) = some (tr (v.slice off n)) := by
  obtain ⟨h1, h2⟩ := h pk off n rest hr
  have hd := Nd.dim0_slice hr
  unfold readRecord
  rw [List.append_assoc, C19_marker_round_trip]
  simp only [if_true, Option.bind_eq_bind]
  rw [h1]
  simp only [Option.bind_some, hd, if_true]
  refine ⟨rfl, ?_⟩
  obtain ⟨p, hp, hp1⟩ := Option.map_eq_some_iff.1 h2
  rw [hp]
  simp only [Option.bind_some, hp1, hd, if_true]
  rfl

/-! ### a stored archive -/

/-- `bs` is a stored form of the sequence of records. -/
inductive Enc (D : Decoder) : List (Str × Nd) → Bytes → Prop
  | nil : Enc D [] []
  | cons {key t v body items bs} : key ≠ [] → writeToken key = some t → Stored D v body → Enc D items bs →
      Enc D ((key, v) :: items) (t ++ (binMarker ++ body ++ bs))

theorem Enc.length {D : Decoder} {items : List (Str × Nd)} {bs : Bytes} (h : Enc D items bs) :
    items.length ≤ bs.length := by
  induction h with
  | nil => simp
  | cons _ ht _ _ ih =>
    obtain ⟨e, rfl, _, _⟩ := writeToken_eq ht
    simp; omega

theorem readToken_nil (pk : Peek) (b : Bool) : readToken pk b [] = some ([], []) := by
  unfold readToken
  cases b <;> rfl

/-- the loop of the sequential reader on a stored archive. -/
theorem arkLoop_enc {D : Decoder} {items : List (Str × Nd)} {bs : Bytes} (h : Enc D items bs) (pk : Peek)
    (tr : Nd → Nd) (off n : Nat) (hr : ∀ it ∈ items, it.2.RangeOk off n) (fuel : Nat) (hf : items.length < fuel)
    (limit : Option Nat) (binary : Bool) :
    ∃ bs', arkLoop pk D tr off n fuel limit binary bs =
        some ((items.take (limit.getD items.length)).map (fun it => (it.1, tr (it.2.slice off n))), bs',
          match limit with | none => true | some k => decide (items.length < k)) ∧
      Enc D (items.drop (limit.getD items.length)) bs' := by
  induction h generalizing fuel limit binary with
  | nil =>
    obtain ⟨f, rfl⟩ : ∃ f, fuel = f + 1 := ⟨fuel - 1, by simp at hf; omega⟩
    refine ⟨[], ?_, by simpa using Enc.nil⟩
    unfold arkLoop
    rw [readToken_nil]
    cases limit with
    | none => simp
    | some k => cases k <;> simp
  | @cons key t v body items bs hk ht hs henc ih =>
    obtain ⟨f, rfl⟩ : ∃ f, fuel = f + 1 := ⟨fuel - 1, by simp at hf; omega⟩
    simp only [List.length_cons] at hf
    by_cases hl : limit = some 0
    · subst hl
      refine ⟨_, ?_, by simpa using Enc.cons hk ht hs henc⟩
      unfold arkLoop
      simp
    · unfold arkLoop
      rw [if_neg hl, readToken_writeToken pk binary hk ht]
      simp only [hk, if_false]
      rw [(readRecord_stored hs pk tr (hr (key, v) (by simp)) bs).1]
      simp only
      obtain ⟨bs', h1, h2⟩ := ih (fun it hit => hr it (List.mem_cons_of_mem _ hit)) f (by omega)
        (limit.map (· - 1)) (initInput pk (binMarker ++ body ++ bs)).1
      rw [h1]
      cases limit with
      | none =>
        exact ⟨bs', by simp, by simpa using h2⟩
      | some k =>
        obtain ⟨k, rfl⟩ : ∃ j, k = j + 1 := ⟨k - 1, by
          have : k ≠ 0 := fun e => hl (by rw [e])
          omega⟩
        exact ⟨bs', by simp, by simpa using h2⟩

/-- one `read` of the sequential reader on a stored archive. -/
theorem ArkReader.read_enc {D : Decoder} {items : List (Str × Nd)} {r : ArkReader} (h : Enc D items r.rest) (pk : Peek)
    (tr : Nd → Nd) (k off n : Nat) (hr : ∀ it ∈ items, it.2.RangeOk off n) :
    ∃ r', r.read pk D tr k off n =
        some ((items.take (if k = 0 then items.length else k)).map (fun it => (it.1, tr (it.2.slice off n))), r') ∧
      Enc D (items.drop (if k = 0 then items.length else k)) r'.rest ∧ r'.content = r.content ∧
      (r'.eof = true ↔ r.eof = true ∨ k = 0 ∨ items.length < k) := by
  have hlen := h.length
  obtain ⟨bs', h1, h2⟩ := arkLoop_enc h pk tr off n hr (r.rest.length + 1) (by omega)
    (if k = 0 then none else some k) false
  unfold ArkReader.read
  rw [h1]
  by_cases hk : k = 0
  · subst hk
    simp only [if_true, Option.getD_none] at h2 ⊢
    exact ⟨_, rfl, h2, rfl, by simp⟩
  · simp only [hk, if_false, Option.getD_some] at h2 ⊢
    exact ⟨_, rfl, h2, rfl, by simp⟩

/-! ### writing -/

/-- positions written in the script: entry `o` points at the stored form of `v`. -/
def At (D : Decoder) (ark : Bytes) (o : Nat) (v : Nd) : Prop :=
  ∃ pre body post, ark = pre ++ (binMarker ++ body ++ post) ∧ pre.length = o ∧ 0 < o ∧ Stored D v body

theorem isToken_writeToken {t : Str} (h : isToken t = true) : t ≠ [] ∧ ' ' ∉ t ∧ (∀ c ∈ t, 32 ≤ c.toNat ∧ c.toNat ≤ 126) ∧
    ∃ b, writeToken t = some b := by
  unfold isToken at h
  simp only [Bool.and_eq_true, Bool.not_eq_true'] at h
  obtain ⟨⟨h1, h2⟩, h3⟩ := h
  have h1' : t ≠ [] := by rintro rfl; simp at h1
  have h3' : ' ' ∉ t := by simpa using h3
  have h2' : ∀ c ∈ t, 32 ≤ c.toNat ∧ c.toNat ≤ 126 := by simpa using h2
  obtain ⟨b, hb, _⟩ := C19_token_round_trip t h1' h3' (fun c hc => by have := h2' c hc; omega)
  exact ⟨h1', h3', h2', b, hb⟩

theorem write_spec {D : Decoder} (sep : Char) (path : Str) (items : List (Str × KMat × Nd))
    (hk : ∀ it ∈ items, isToken it.1 = true) (hv : ∀ it ∈ items, it.2.1.Value D it.2.2) (w : ArkWriter) :
    ∃ w' bs offs, w.write sep path (items.map (fun it => (it.1, it.2.1))) = some w' ∧ w'.ark = w.ark ++ bs ∧
      Enc D (items.map (fun it => (it.1, it.2.2))) bs ∧
      w'.script = w.script ++ (items.zip offs).flatMap (fun p => scriptLine sep path p.1.1 p.2) ∧
      List.Forall₂ (fun it o => At D w'.ark o it.2.2) items offs := by
  induction items generalizing w with
  | nil => exact ⟨w, [], [], rfl, by simp, Enc.nil, by simp, List.Forall₂.nil⟩
  | cons it items ih =>
    obtain ⟨hne, _, _, t, ht⟩ := isToken_writeToken (hk it (by simp))
    obtain ⟨body, hb, hs⟩ := value_stored (hv it (by simp))
    have h1 : w.writeOne sep path (it.1, it.2.1) =
        some ⟨w.ark ++ t ++ binMarker ++ body, w.script ++ scriptLine sep path it.1 (w.ark ++ t).length⟩ := by
      unfold ArkWriter.writeOne
      simp only [hk it (by simp), if_true, ht, hb, Option.bind_eq_bind, Option.bind_some]
      rfl
    obtain ⟨w', bs, offs, hw, ha, henc, hsc, hat⟩ := ih (fun x hx => hk x (List.mem_cons_of_mem _ hx))
      (fun x hx => hv x (List.mem_cons_of_mem _ hx))
      ⟨w.ark ++ t ++ binMarker ++ body, w.script ++ scriptLine sep path it.1 (w.ark ++ t).length⟩
    refine ⟨w', t ++ (binMarker ++ body ++ bs), (w.ark ++ t).length :: offs, ?_, ?_, ?_, ?_, ?_⟩
    · unfold ArkWriter.write at hw ⊢
      rw [List.map_cons, List.foldlM_cons, h1]
      exact hw
    · rw [ha]; simp
    · exact Enc.cons hne ht hs henc
    · rw [hsc]; simp
    · refine List.Forall₂.cons ⟨w.ark ++ t, body, bs, by rw [ha]; simp, rfl, ?_, hs⟩ hat
      obtain ⟨e, rfl, _, _⟩ := writeToken_eq ht
      simp

/-! ## C22 -/

/-- Any sequence of records with valid keys is written, and the sequential reader - for any buffering - returns
the same keys and arrays in the same order and is then at the end of the archive. -/
theorem C22_sequential_round_trip (D : Decoder) (sep : Char) (path : Str) (items : List (Str × KMat × Nd))
    (hk : ∀ it ∈ items, isToken it.1 = true) (hv : ∀ it ∈ items, it.2.1.Value D it.2.2) :
    ∃ w, (ArkWriter.mk [] []).write sep path (items.map (fun it => (it.1, it.2.1))) = some w ∧
      ∀ pk, ∃ r', (ArkReader.open w.ark).read pk D id 0 0 0 = some (items.map (fun it => (it.1, it.2.2)), r') ∧
        r'.rest = [] ∧ r'.eof = true := by
  obtain ⟨w, bs, offs, hw, ha, henc, _, _⟩ := write_spec sep path items hk hv ⟨[], []⟩
  refine ⟨w, hw, fun pk => ?_⟩
  have henc' : Enc D (items.map (fun it => (it.1, it.2.2))) (ArkReader.open w.ark).rest := by
    have : (ArkReader.open w.ark).rest = bs := by simp [ArkReader.open, ha]
    rw [this]; exact henc
  obtain ⟨r', h1, h2, _, h4⟩ := ArkReader.read_enc henc' pk id 0 0 0 (fun it _ => Nd.rangeOk_zero _)
  refine ⟨r', ?_, ?_, h4.2 (by simp)⟩
  · rw [h1]
    simp only [if_true, List.take_length, Nd.slice_zero, id, Option.some.injEq, Prod.mk.injEq, and_true]
    simp
  · have h2' : Enc D [] r'.rest := by
      rw [if_pos rfl, List.drop_length] at h2; exact h2
    generalize r'.rest = x at h2'
    cases h2'; rfl

theorem ArkReader.iter_enc {D : Decoder} (pk : Peek) (tr : Nd → Nd) (n : Nat) (items : List (Str × Nd)) (r : ArkReader) (h : Enc D items r.rest) :
    ArkReader.iter pk D tr n r = some ((items.take n).map (fun it => (it.1, tr it.2)), decide (items.length < n)) := by
  induction n generalizing items r with
  | zero => simp [ArkReader.iter]
  | succ n ih =>
    obtain ⟨r', h1, h2, _, _⟩ := ArkReader.read_enc h pk tr 1 0 0 (fun it _ => Nd.rangeOk_zero _)
    rw [if_neg (by decide)] at h1 h2
    cases items with
    | nil =>
      have e : r.next pk D tr = some (none, r') := by unfold ArkReader.next; rw [h1]; rfl
      simp [ArkReader.iter, e]
    | cons it items =>
      have e : r.next pk D tr = some (some (it.1, tr it.2), r') := by
        unfold ArkReader.next
        rw [h1]
        simp [Nd.slice_zero]
      rw [ArkReader.iter, e]
      simp only [Option.bind_eq_bind, Option.bind_some]
      rw [ih items r' h2]
      simp only [Option.bind_some, List.take_succ_cons, List.map_cons, List.length_cons]
      have e2 : decide (items.length < n) = decide (items.length + 1 < n + 1) := decide_eq_decide.2 (by omega)
      rw [e2]
      rfl

/-- `for key, data in reader` over an archive just written gives the complete records in order, each through the transformation, and stops after the last. -/
theorem C22_iterate (D : Decoder) (sep : Char) (path : Str) (items : List (Str × KMat × Nd))
    (hk : ∀ it ∈ items, isToken it.1 = true) (hv : ∀ it ∈ items, it.2.1.Value D it.2.2) :
    ∃ w, (ArkWriter.mk [] []).write sep path (items.map (fun it => (it.1, it.2.1))) = some w ∧
      ∀ pk tr n, ArkReader.iter pk D tr n (ArkReader.open w.ark) =
        some ((items.take n).map (fun it => (it.1, tr it.2.2)), decide (items.length < n)) := by
  obtain ⟨w, bs, offs, hw, ha, henc, _, _⟩ := write_spec sep path items hk hv ⟨[], []⟩
  refine ⟨w, hw, fun pk tr n => ?_⟩
  have henc' : Enc D (items.map (fun it => (it.1, it.2.2))) (ArkReader.open w.ark).rest := by
    have : (ArkReader.open w.ark).rest = bs := by simp [ArkReader.open, ha]
    rw [this]; exact henc
  rw [ArkReader.iter_enc pk tr n _ _ henc', ← List.map_take, List.map_map, List.length_map]
  rfl

/-- Keys that are not tokens are refused, whatever the state of the writer. -/
theorem C22_bad_key_raises (sep : Char) (path : Str) (w : ArkWriter) (rs1 rs2 : List (Str × KMat)) (key : Str) (km : KMat)
    (h : key = [] ∨ ' ' ∈ key ∨ ∃ c ∈ key, c.toNat < 32 ∨ 126 < c.toNat) :
    w.write sep path (rs1 ++ (key, km) :: rs2) = none := by
  unfold ArkWriter.write
  rw [List.foldlM_append]
  cases h1 : List.foldlM (ArkWriter.writeOne sep path) w rs1 with
  | none => rfl
  | some w1 =>
    have hno : isToken key = false := by
      by_cases hb : isToken key = true
      · obtain ⟨a1, a2, a3, _⟩ := isToken_writeToken hb
        rcases h with h | h | ⟨c, hc, h⟩
        · exact absurd h a1
        · exact absurd h a2
        · have := a3 c hc; omega
      · simpa using hb
    simp only [Option.bind_eq_bind, Option.bind_some, List.foldlM_cons, ArkWriter.writeOne, hno]
    rfl

/-- How the records are grouped in calls of `write` does not matter. -/
theorem C22_write_calls (sep : Char) (path : Str) (w : ArkWriter) (calls : List (List (Str × KMat))) :
    calls.foldlM (fun w rs => w.write sep path rs) w = w.write sep path calls.flatten := by
  induction calls generalizing w with
  | nil => rfl
  | cons c calls ih =>
    rw [List.foldlM_cons, List.flatten_cons]
    unfold ArkWriter.write
    rw [List.foldlM_append]
    congr 1
    funext w'
    have := ih w'
    unfold ArkWriter.write at this
    exact this

/-- the script list that corresponds to the text written by the writer. -/
theorem script_is_save (sep : Char) (path : Str) (items : List (Str × KMat × Nd)) (offs : List Nat)
    (hl : offs.length = items.length) :
    (items.zip offs).flatMap (fun p => scriptLine sep path p.1.1 p.2) =
      (Scp.Scp.mk (items.map (·.1)) (items.map (fun _ => path)) (some offs) none none).save sep ':' := by
  simp only [Scp.Scp.save, Scp.rangeTexts]
  induction items generalizing offs with
  | nil => simp
  | cons it items ih =>
    cases offs with
    | nil => simp at hl
    | cons o offs =>
      simp only [List.zip_cons_cons, List.flatMap_cons, List.map_cons, List.append_nil]
      rw [ih offs (by simpa using hl)]
      rfl

theorem create_cache {key path : List Str} {o : Option (List Nat)} {r : Option (List (Nat × Int))} {x : Scp.Scp Str Str}
    (h : Scp.create key path o r = some x) : x.cache = none := by
  unfold Scp.create at h
  split_ifs at h
  all_goals
    cases r with
    | none => simp only [Option.some.injEq] at h; rw [← h]
    | some r =>
      simp only at h
      split_ifs at h
      all_goals (simp only [Option.some.injEq] at h; rw [← h])

theorem getByPos_of {x : Scp.Scp Str Str} {keys paths : List Str} {offs : List Nat} (h1 : x.key = keys)
    (h2 : x.path = paths) (h3 : x.offset = some offs) (h4 : x.range = none) {i : Nat} {k p : Str} {o : Nat}
    (hk : keys[i]? = some k) (hp : paths[i]? = some p) (ho : offs[i]? = some o) :
    x.getByPos i = some (k, p, some o, none) := by
  unfold Scp.Scp.getByPos
  simp only [h1, h2, h3, h4, Scp.optCol, hk, hp, ho, Option.map_some, Option.bind_eq_bind, Option.bind_some]
  rfl

/-- conditions on the separator and the archive path under which a script file can be parsed. -/
structure PathOk (sep : Char) (path : Str) : Prop where
  path : '[' ∉ path ∧ ':' ∉ path ∧ '\n' ∉ path ∧ '\r' ∉ path ∧ path ≠ [] ∧ ∀ c ∈ path.getLast?, isSpace c = false
  sep : sep ≠ '\n' ∧ sep ≠ '\r'

/-- the script file written by the writer loads as the list of (key, path, position) of the records. -/
theorem load_script (D : Decoder) (sep : Char) (path : Str) (hp : PathOk sep path) (items : List (Str × KMat × Nd))
    (hne : items ≠ []) (hk : ∀ it ∈ items, isToken it.1 = true) (hsep : ∀ it ∈ items, sep ∉ it.1)
    (hv : ∀ it ∈ items, it.2.1.Value D it.2.2) :
    ∃ w x offs, (ArkWriter.mk [] []).write sep path (items.map (fun it => (it.1, it.2.1))) = some w ∧
      Scp.load sep ':' w.script = some x ∧ x.key = items.map (·.1) ∧ x.path = items.map (fun _ => path) ∧
      x.offset = some offs ∧ x.range = none ∧ List.Forall₂ (fun it o => At D w.ark o it.2.2) items offs := by
  obtain ⟨w, bs, offs, hw, ha, henc, hsc, hat⟩ := write_spec sep path items hk hv ⟨[], []⟩
  have hl : offs.length = items.length := hat.length_eq.symm
  have hscr : w.script = (Scp.Scp.mk (items.map (·.1)) (items.map (fun _ => path)) (some offs) none none).save sep ':' := by
    rw [hsc, ← script_is_save sep path items offs hl]; rfl
  have hwf : (Scp.Scp.mk (items.map (·.1)) (items.map (fun _ => path)) (some offs) none none).WF :=
    ⟨by simp, by simp [hl], by simp⟩
  have hsav : Scp.Savable sep ':' (Scp.Scp.mk (items.map (·.1)) (items.map (fun _ => path)) (some offs) none none) := by
    refine ⟨?_, ?_, by simp, ⟨hp.sep.1, hp.sep.2, by decide, by decide, by decide⟩⟩
    · intro k hkm
      obtain ⟨it, hit, rfl⟩ := List.mem_map.1 hkm
      obtain ⟨_, _, h3, _⟩ := isToken_writeToken (hk it hit)
      refine ⟨hsep it hit, fun hc => ?_, fun hc => ?_⟩
      · have := h3 _ hc; revert this; decide
      · have := h3 _ hc; revert this; decide
    · intro p hpm
      obtain ⟨it, hit, rfl⟩ := List.mem_map.1 hpm
      exact hp.path
  obtain ⟨x, hx, hxk, hxp, hxo, hxr⟩ := Scp.C04_scp_round_trip sep ':' _ hwf (by simpa using hne) hsav
  rw [← hscr] at hx
  refine ⟨w, x, offs, hw, hx, hxk, hxp, hxo, ?_, hat⟩
  rw [hxr]; simp

/-- reading the record at a stored position, with any row range. -/
theorem readRecord_at {D : Decoder} {ark : Bytes} {o : Nat} {v : Nd} (h : At D ark o v) (pk : Peek) (tr : Nd → Nd)
    {off n : Nat} (hr : v.RangeOk off n) :
    (∃ s, readRecord pk D tr off n true (ark.drop o) = some (tr (v.slice off n), s)) ∧
    (readRecord pk D tr off n false (ark.drop o)).map (·.1) = some (tr (v.slice off n)) := by
  obtain ⟨pre, body, post, rfl, rfl, _, hs⟩ := h
  rw [List.drop_left' rfl]
  obtain ⟨h1, h2⟩ := readRecord_stored hs pk tr hr post
  exact ⟨⟨_, h1⟩, h2⟩

/-- Random access: each position stored in the script file yields the matrix of its key. For distinct keys,
asking for any list of written keys, in any order, returns their arrays (rows `off..off+n` of them). -/
theorem C22_random_access (D : Decoder) (sep : Char) (path : Str) (hp : PathOk sep path) (items : List (Str × KMat × Nd))
    (hne : items ≠ []) (hk : ∀ it ∈ items, isToken it.1 = true) (hsep : ∀ it ∈ items, sep ∉ it.1)
    (hv : ∀ it ∈ items, it.2.1.Value D it.2.2) (hnd : (items.map (·.1)).Nodup) :
    ∃ w x, (ArkWriter.mk [] []).write sep path (items.map (fun it => (it.1, it.2.1))) = some w ∧
      Scp.load sep ':' w.script = some x ∧
      ∀ (pk : Peek) (fs : Files) (permissive : Bool) (off n : Nat) (its : List (Str × KMat × Nd)),
        fs path = some w.ark → (∀ it ∈ its, it ∈ items ∧ it.2.2.RangeOk off n) →
        randomRead pk D id fs x permissive off n (its.map (·.1)) = some (its.map (fun it => it.2.2.slice off n)) := by
  obtain ⟨w, x, offs, hw, hx, hxk, hxp, hxo, hxr, hat⟩ := load_script D sep path hp items hne hk hsep hv
  refine ⟨w, x, hw, hx, fun pk fs permissive off n its hfs hits => ?_⟩
  have hcache : x.cache = none := by
    unfold Scp.load at hx
    simp only [Option.bind_eq_bind, Option.bind_eq_some_iff] at hx
    obtain ⟨_, _, _, _, hx⟩ := hx
    exact create_cache hx
  unfold randomRead
  have key : ∀ it ∈ its, randomReadOne pk D id fs x permissive off n it.1 = some (it.2.2.slice off n) := by
    intro it hit
    obtain ⟨hmem, hrange⟩ := hits it hit
    obtain ⟨i, hi, hieq⟩ := List.mem_iff_getElem.1 hmem
    have hlen := hat.length_eq
    have hidx : dictGet (enumDict x.key) it.1 = some i := by
      have hk' : x.key[i]? = some it.1 := by
        rw [hxk, List.getElem?_map, List.getElem?_eq_getElem hi, hieq]; rfl
      exact enumDict_get_nodup (by rw [hxk]; exact hnd) hk'
    have hgi : (x.getIndex it.1).1 = some i := by
      unfold Scp.Scp.getIndex; rw [hcache]; exact hidx
    have hco : (x.contains it.1).1 = true := by
      unfold Scp.Scp.contains; rw [hcache]; simp [hidx]
    have ho : offs[i]? = some offs[i] := List.getElem?_eq_getElem (by omega)
    have hpos : x.getByPos i = some (it.1, path, some offs[i], none) :=
      getByPos_of hxk hxp hxo hxr (by rw [List.getElem?_map, List.getElem?_eq_getElem hi, hieq]; rfl)
        (by rw [List.getElem?_map, List.getElem?_eq_getElem hi]; rfl) ho
    have hAt : At D w.ark offs[i] it.2.2 := by
      have := List.forall₂_iff_get.1 hat
      have := this.2 i hi (by omega)
      simp only [List.get_eq_getElem, hieq] at this
      exact this
    unfold randomReadOne
    rw [if_pos hco, hgi]
    simp only [Option.bind_eq_bind, Option.bind_some, hpos, combineRanges, hfs, natOf_nat]
    obtain ⟨p, hp1, hp2⟩ := Option.map_eq_some_iff.1 (readRecord_at hAt pk id hrange).2
    rw [hp1]
    simp only [Option.bind_some, hp2]
    rfl
  rw [List.mapM_map]
  exact mapM_eq_some_map key

/-- A key that is not in the script file: an empty array in permissive mode, otherwise an exception. -/
theorem C22_missing_key (pk : Peek) (D : Decoder) (fs : Files) (x : Scp.Scp Str Str) (hc : x.cache = none) (key : Str)
    (h : key ∉ x.key) (off n : Nat) :
    randomReadOne pk D id fs x true off n key = some (.vec .f32 []) ∧
    randomReadOne pk D id fs x false off n key = none := by
  have hco : (x.contains key).1 = false := by
    unfold Scp.Scp.contains; rw [hc]
    simp [enumDict_get_not_mem h]
  unfold randomReadOne
  simp [hco]

end Hyp.Kaldi
