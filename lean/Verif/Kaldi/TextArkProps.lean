import Verif.Kaldi.TextArk

/-! C135: archives in text mode. -/

namespace Hyp.Kaldi
open Hyp.Text

/-- a record that the text writer can store: a key the writer accepts, the array `v` of the matrix object, in a shape that text mode can store, with
readable numerals. -/
structure TextItem (D : Decoder) (fmt : Dt → Bytes → Str) (rt : Dt → Bytes → Bytes) (it : Str × KMat × Nd) : Prop where
  key : isToken it.1 = true
  value : it.2.1.toNd D = some it.2.2
  shape : it.2.2.TextOk
  nums : ∀ e ∈ it.2.2.elems, NumOk D fmt rt it.2.2.dt e

/-- the array of a stored matrix object is the one that binary mode reads back. -/
theorem toNd_value {D : Decoder} {km : KMat} {v : Nd} (h : km.Value D v) : km.toNd D = some v := by
  cases h with
  | plain _ _ _ _ => rfl
  | comp a d hwf hd => exact cmToNd_build D hwf hd
  | empty => rfl

/-- sequence of records as the sequential reader meets them, in any mode. -/
inductive EncR (D : Decoder) : List (Str × Nd) → Bytes → Prop
  | nil : EncR D [] []
  | cons {key t v b items bs} : key ≠ [] → writeToken key = some t →
      (∀ pk tr, readRecord pk D tr 0 0 true (b ++ bs) = some (tr v, bs)) → EncR D items bs → EncR D ((key, v) :: items) (t ++ (b ++ bs))

theorem EncR.length {D : Decoder} {items : List (Str × Nd)} {bs : Bytes} (h : EncR D items bs) : items.length ≤ bs.length := by
  induction h with
  | nil => simp
  | cons _ ht _ _ ih =>
    obtain ⟨e, rfl, _, _⟩ := writeToken_eq ht
    simp; omega

theorem arkLoop_encR {D : Decoder} {items : List (Str × Nd)} {bs : Bytes} (h : EncR D items bs) (pk : Peek)
    (tr : Nd → Nd) (fuel : Nat) (hf : items.length < fuel) (limit : Option Nat) (binary : Bool) :
    ∃ bs', arkLoop pk D tr 0 0 fuel limit binary bs =
        some ((items.take (limit.getD items.length)).map (fun it => (it.1, tr it.2)), bs',
          match limit with | none => true | some k => decide (items.length < k)) ∧
      EncR D (items.drop (limit.getD items.length)) bs' := by
  induction h generalizing fuel limit binary with
  | nil =>
    obtain ⟨f, rfl⟩ : ∃ f, fuel = f + 1 := ⟨fuel - 1, by simp at hf; omega⟩
    refine ⟨[], ?_, by simpa using EncR.nil⟩
    unfold arkLoop
    rw [readToken_nil]
    cases limit with
    | none => simp
    | some k => cases k <;> simp
  | @cons key t v b items bs hk ht hs henc ih =>
    obtain ⟨f, rfl⟩ : ∃ f, fuel = f + 1 := ⟨fuel - 1, by simp at hf; omega⟩
    simp only [List.length_cons] at hf
    by_cases hl : limit = some 0
    · subst hl
      refine ⟨_, ?_, by simpa using EncR.cons hk ht hs henc⟩
      unfold arkLoop
      simp
    · unfold arkLoop
      rw [if_neg hl, readToken_writeToken pk binary hk ht]
      simp only [hk, if_false]
      rw [hs pk tr]
      simp only
      obtain ⟨bs', h1, h2⟩ := ih f (by omega) (limit.map (· - 1)) (initInput pk (b ++ bs)).1
      rw [h1]
      cases limit with
      | none =>
        exact ⟨bs', by simp, by simpa using h2⟩
      | some k =>
        obtain ⟨k, rfl⟩ : ∃ j, k = j + 1 := ⟨k - 1, by
          have : k ≠ 0 := fun e => hl (by rw [e])
          omega⟩
        exact ⟨bs', by simp, by simpa using h2⟩

theorem ArkReader.read_encR {D : Decoder} {items : List (Str × Nd)} {r : ArkReader} (h : EncR D items r.rest) (pk : Peek) (tr : Nd → Nd) (k : Nat) :
    ∃ r', r.read pk D tr k 0 0 = some ((items.take (if k = 0 then items.length else k)).map (fun it => (it.1, tr it.2)), r') ∧
      EncR D (items.drop (if k = 0 then items.length else k)) r'.rest ∧ r'.content = r.content ∧
      (r'.eof = true ↔ r.eof = true ∨ k = 0 ∨ items.length < k) := by
  have hlen := h.length
  obtain ⟨bs', h1, h2⟩ := arkLoop_encR h pk tr (r.rest.length + 1) (by omega) (if k = 0 then none else some k) false
  unfold ArkReader.read
  rw [h1]
  by_cases hk : k = 0
  · subst hk
    simp only [if_true, Option.getD_none] at h2 ⊢
    exact ⟨_, rfl, h2, rfl, by simp⟩
  · simp only [hk, if_false, Option.getD_some] at h2 ⊢
    exact ⟨_, rfl, h2, rfl, by simp⟩

theorem ark_readManyR {D : Decoder} (pk : Peek) (tr : Nd → Nd) (ks : List Nat) (hpos : ∀ k ∈ ks, 0 < k)
    (items : List (Str × Nd)) (r : ArkReader) (h : EncR D items r.rest) :
    ∃ outs r', readMany (fun r k => r.read pk D tr k 0 0) r ks = some (outs, r') ∧
      outs.flatten = (items.take ks.sum).map (fun it => (it.1, tr it.2)) ∧
      (∀ p ∈ outs.zip ks, p.1.length ≤ p.2) ∧ r'.content = r.content ∧
      (r'.eof = true ↔ r.eof = true ∨ items.length < ks.sum) := by
  induction ks generalizing items r with
  | nil => exact ⟨[], r, rfl, by simp, by simp, rfl, by simp⟩
  | cons k ks ih =>
    have hk := hpos k (by simp)
    obtain ⟨r1, h1, h2, h3, h4⟩ := ArkReader.read_encR h pk tr k
    have hk0 : k ≠ 0 := by omega
    rw [if_neg hk0] at h1 h2
    obtain ⟨outs, r', g1, g2, g2', g4, g5⟩ := ih (fun x hx => hpos x (List.mem_cons_of_mem _ hx)) _ r1 h2
    refine ⟨(items.take k).map (fun it => (it.1, tr it.2)) :: outs, r', ?_, ?_, ?_, by rw [g4, h3], ?_⟩
    · unfold readMany
      simp only [h1]
      simp only [g1]; rfl
    · simp only [List.flatten_cons, List.sum_cons, g2]
      rw [List.take_add, List.map_append]
    · intro p hp
      rcases List.mem_cons.1 hp with rfl | hp
      · simp
      · exact g2' p hp
    · rw [g5, h4, List.length_drop, List.sum_cons]
      constructor
      · rintro ((h | h | h) | h)
        · exact Or.inl h
        · exact absurd h hk0
        · right; omega
        · right; omega
      · rintro (h | h)
        · exact Or.inl (Or.inl h)
        · by_cases hl : items.length < k
          · exact Or.inl (Or.inr (Or.inr hl))
          · right; omega

/-! ### a text record -/

theorem textBody_head (fmt : Dt → Bytes → Str) (v : Nd) : ∃ t, textBody fmt v = ' ' :: t := by
  cases v with
  | vec dt els =>
    rw [textBody_vec]
    split
    · exact ⟨_, rfl⟩
    · exact ⟨_, rfl⟩
  | mat dt cols rows =>
    rw [textBody_mat]
    split
    · exact ⟨_, rfl⟩
    · exact ⟨_, rfl⟩

theorem noMarker (pk : Peek) {u : Str} (h : u.head? = some ' ') (rest : Bytes) : initInput pk (toBytes u ++ rest) = (false, toBytes u ++ rest) := by
  obtain ⟨t, rfl⟩ : ∃ t, u = ' ' :: t := by
    cases u with
    | nil => cases h
    | cons c t => exact ⟨t, by rw [Option.some.inj h]⟩
  rw [C19_marker, if_neg]
  show ¬ List.take 2 ((32 : UInt8) :: (toBytes t ++ rest)) = [0, 66]
  rw [List.take_succ_cons]
  intro h
  exact absurd (List.cons.inj h).1 (by decide)

theorem readRecord_noMarker {pk : Peek} {D : Decoder} {tr : Nd → Nd} {seqMode : Bool} {s : Bytes} (h : initInput pk s = (false, s)) :
    readRecord pk D tr 0 0 seqMode s = (readText D 0 0 s).map (fun p => (tr p.1, p.2)) := by
  unfold readRecord
  simp only [h]
  cases readText D 0 0 s <;> simp

theorem writeText_body {D : Decoder} {fmt : Dt → Bytes → Str} {rt : Dt → Bytes → Bytes} {it : Str × KMat × Nd} (h : TextItem D fmt rt it) :
    it.2.1.writeText D fmt = some (toBytes (textBody fmt it.2.2)) := by
  unfold KMat.writeText
  rw [h.value]
  exact encode_toBytes (textBody_ascii h.nums)

theorem readRecord_text {D : Decoder} {fmt : Dt → Bytes → Str} {rt : Dt → Bytes → Bytes} {it : Str × KMat × Nd} (h : TextItem D fmt rt it)
    (pk : Peek) (tr : Nd → Nd) (seqMode : Bool) (rest : Bytes) :
    readRecord pk D tr 0 0 seqMode (toBytes (textBody fmt it.2.2) ++ rest) = some (tr (it.2.2.reread rt), rest) := by
  obtain ⟨t, ht⟩ := textBody_head fmt it.2.2
  rw [readRecord_noMarker (noMarker pk (by rw [ht]; rfl) rest)]
  obtain ⟨body, h1, h2⟩ := C135_text_array D fmt rt it.2.2 h.shape h.nums
  have h3 : body = toBytes (textBody fmt it.2.2) := by
    have := encode_toBytes (textBody_ascii h.nums)
    have h1' : encodeAscii (textBody fmt it.2.2) = some body := h1
    rw [this] at h1'
    exact (Option.some.inj h1').symm
  rw [← h3, h2]
  rfl

/-- positions written in the script. -/
def AtT (fmt : Dt → Bytes → Str) (ark : Bytes) (o : Nat) (v : Nd) : Prop :=
  ∃ pre post, ark = pre ++ (toBytes (textBody fmt v) ++ post) ∧ pre.length = o ∧ 0 < o

theorem writeText_spec {D : Decoder} {fmt : Dt → Bytes → Str} {rt : Dt → Bytes → Bytes} (sep : Char) (path : Str) (items : List (Str × KMat × Nd))
    (h : ∀ it ∈ items, TextItem D fmt rt it) (tail : List (Str × Nd)) (post : Bytes) (htail : EncR D tail post) (w : ArkWriter) :
    ∃ w' bs offs, w.writeText D fmt sep path (items.map (fun it => (it.1, it.2.1))) = some w' ∧ w'.ark = w.ark ++ bs ∧
      EncR D (items.map (fun it => (it.1, it.2.2.reread rt)) ++ tail) (bs ++ post) ∧
      w'.script = w.script ++ (items.zip offs).flatMap (fun p => scriptLine sep path p.1.1 p.2) ∧
      List.Forall₂ (fun it o => AtT fmt w'.ark o it.2.2) items offs := by
  induction items generalizing w with
  | nil => exact ⟨w, [], [], rfl, by simp, by simpa using htail, by simp, List.Forall₂.nil⟩
  | cons it items ih =>
    have hi := h it (by simp)
    obtain ⟨hne, _, _, t, ht⟩ := isToken_writeToken hi.key
    have h1 : w.writeOneText D fmt sep path (it.1, it.2.1) =
        some ⟨w.ark ++ t ++ toBytes (textBody fmt it.2.2), w.script ++ scriptLine sep path it.1 (w.ark ++ t).length⟩ := by
      unfold ArkWriter.writeOneText
      rw [if_pos hi.key]
      simp only [ht, writeText_body hi, Option.bind_some, Option.map_some]
    obtain ⟨w', bs, offs, hw, ha, henc, hsc, hat⟩ := ih (fun x hx => h x (List.mem_cons_of_mem _ hx))
      ⟨w.ark ++ t ++ toBytes (textBody fmt it.2.2), w.script ++ scriptLine sep path it.1 (w.ark ++ t).length⟩
    refine ⟨w', t ++ (toBytes (textBody fmt it.2.2) ++ bs), (w.ark ++ t).length :: offs, ?_, ?_, ?_, ?_, ?_⟩
    · unfold ArkWriter.writeText at hw ⊢
      rw [List.map_cons, List.foldlM_cons, h1]
      exact hw
    · rw [ha]; simp
    · have := EncR.cons (b := toBytes (textBody fmt it.2.2)) hne ht (fun pk tr => readRecord_text hi pk tr true (bs ++ post)) henc
      simpa using this
    · rw [hsc]; simp
    · refine List.Forall₂.cons ⟨w.ark ++ t, bs, by rw [ha]; simp, rfl, ?_⟩ hat
      obtain ⟨e, rfl, _, _⟩ := writeToken_eq ht
      simp

theorem enc_encR {D : Decoder} {items : List (Str × Nd)} {bs : Bytes} (h : Enc D items bs) {tail : List (Str × Nd)} {post : Bytes}
    (htail : EncR D tail post) : EncR D (items ++ tail) (bs ++ post) := by
  induction h with
  | nil => exact htail
  | cons hk ht hs _ ih =>
    rename_i key t v body items bs _
    have := EncR.cons (b := binMarker ++ body) hk ht (fun pk tr => by
      have := (readRecord_stored hs pk tr (Nd.rangeOk_zero v) (bs ++ post)).1
      rwa [Nd.slice_zero] at this) ih
    simpa using this

/-! ## C135 -/

/-- **C135.** An archive written in text mode is read by the sequential reader: for any split of the reading in calls, the records come out in order,
with their keys and shapes, each number as its numeral reads. -/
theorem C135_text_archive (D : Decoder) (fmt : Dt → Bytes → Str) (rt : Dt → Bytes → Bytes) (sep : Char) (path : Str) (items : List (Str × KMat × Nd))
    (h : ∀ it ∈ items, TextItem D fmt rt it) :
    ∃ w, (ArkWriter.mk [] []).writeText D fmt sep path (items.map (fun it => (it.1, it.2.1))) = some w ∧
      ∀ (pk : Peek) (tr : Nd → Nd),
        (∃ r', (ArkReader.open w.ark).read pk D tr 0 0 0 = some (items.map (fun it => (it.1, tr (it.2.2.reread rt))), r') ∧ r'.eof = true) ∧
        ∀ ks : List Nat, (∀ k ∈ ks, 0 < k) →
          ∃ outs r', readMany (fun r k => ArkReader.read pk D tr r k 0 0) (ArkReader.open w.ark) ks = some (outs, r') ∧
            outs.flatten = (items.map (fun it => (it.1, tr (it.2.2.reread rt)))).take ks.sum ∧
            (∀ p ∈ outs.zip ks, p.1.length ≤ p.2) ∧ (r'.eof = true ↔ items.length < ks.sum) ∧ r'.reset = ArkReader.open w.ark := by
  obtain ⟨w, bs, offs, hw, ha, henc, _, _⟩ := writeText_spec sep path items h [] [] EncR.nil ⟨[], []⟩
  refine ⟨w, hw, fun pk tr => ?_⟩
  have henc' : EncR D (items.map (fun it => (it.1, it.2.2.reread rt))) (ArkReader.open w.ark).rest := by
    have : (ArkReader.open w.ark).rest = bs := by simp [ArkReader.open, ha]
    rw [this]; simpa using henc
  refine ⟨?_, fun ks hpos => ?_⟩
  · obtain ⟨r', h1, _, _, h4⟩ := ArkReader.read_encR henc' pk tr 0
    refine ⟨r', ?_, h4.2 (by simp)⟩
    rw [h1, if_pos rfl, List.take_length, List.map_map]
    rfl
  · obtain ⟨outs, r', h1, h2, h3, h5, h6⟩ := ark_readManyR pk tr ks hpos _ _ henc'
    refine ⟨outs, r', h1, ?_, h3, ?_, ?_⟩
    · rw [h2, ← List.map_take, ← List.map_take, List.map_map]
      rfl
    · rw [h6]; simp [ArkReader.open]
    · unfold ArkReader.reset ArkReader.open
      rw [h5]; rfl

/-- Binary and text archives may be concatenated in any order and are read as one. -/
theorem C135_mixed_archive (D : Decoder) (fmt : Dt → Bytes → Str) (rt : Dt → Bytes → Bytes) (sep : Char) (path : Str) (items bins : List (Str × KMat × Nd))
    (h : ∀ it ∈ items, TextItem D fmt rt it) (hk : ∀ it ∈ bins, isToken it.1 = true) (hv : ∀ it ∈ bins, it.2.1.Value D it.2.2) :
    ∃ w wb, (ArkWriter.mk [] []).writeText D fmt sep path (items.map (fun it => (it.1, it.2.1))) = some w ∧
      (ArkWriter.mk [] []).write sep path (bins.map (fun it => (it.1, it.2.1))) = some wb ∧
      ∀ (pk : Peek) (tr : Nd → Nd),
        (∃ r', (ArkReader.open (w.ark ++ wb.ark)).read pk D tr 0 0 0 =
          some (items.map (fun it => (it.1, tr (it.2.2.reread rt))) ++ bins.map (fun it => (it.1, tr it.2.2)), r')) ∧
        (∃ r', (ArkReader.open (wb.ark ++ w.ark)).read pk D tr 0 0 0 =
          some (bins.map (fun it => (it.1, tr it.2.2)) ++ items.map (fun it => (it.1, tr (it.2.2.reread rt))), r')) := by
  obtain ⟨wb, bb, _, hwb, hab, hencb, _, _⟩ := write_spec sep path bins hk hv ⟨[], []⟩
  have hb := enc_encR hencb EncR.nil
  obtain ⟨w, bs, offs, hw, ha, henc, _, _⟩ := writeText_spec sep path items h _ _ hb ⟨[], []⟩
  obtain ⟨w2, bs2, offs2, hw2, ha2, henc2, _, _⟩ := writeText_spec sep path items h [] [] EncR.nil ⟨[], []⟩
  have hww : w2 = w := by rw [hw2] at hw; exact Option.some.inj hw
  subst hww
  have hbs : bs2 = bs := by
    have := ha2.symm.trans ha
    simpa using this
  subst hbs
  refine ⟨w2, wb, hw, hwb, fun pk tr => ⟨?_, ?_⟩⟩
  · have e : EncR D (items.map (fun it => (it.1, it.2.2.reread rt)) ++ bins.map (fun it => (it.1, it.2.2))) (ArkReader.open (w2.ark ++ wb.ark)).rest := by
      have : (ArkReader.open (w2.ark ++ wb.ark)).rest = bs2 ++ bb := by simp [ArkReader.open, ha, hab]
      rw [this]; simpa using henc
    obtain ⟨r', h1, _, _, _⟩ := ArkReader.read_encR e pk tr 0
    refine ⟨r', ?_⟩
    rw [h1, if_pos rfl, List.take_length, List.map_append, List.map_map, List.map_map]
    rfl
  · have e : EncR D (bins.map (fun it => (it.1, it.2.2)) ++ items.map (fun it => (it.1, it.2.2.reread rt))) (ArkReader.open (wb.ark ++ w2.ark)).rest := by
      have : (ArkReader.open (wb.ark ++ w2.ark)).rest = bb ++ bs2 := by simp [ArkReader.open, ha, hab]
      rw [this]
      have := enc_encR hencb (tail := _) (post := _) henc2
      simpa using this
    obtain ⟨r', h1, _, _, _⟩ := ArkReader.read_encR e pk tr 0
    refine ⟨r', ?_⟩
    rw [h1, if_pos rfl, List.take_length, List.map_append, List.map_map, List.map_map]
    rfl

/-- How the records are grouped in calls of `write` does not matter. -/
theorem C135_write_calls (D : Decoder) (fmt : Dt → Bytes → Str) (sep : Char) (path : Str) (w : ArkWriter) (calls : List (List (Str × KMat))) :
    calls.foldlM (fun w rs => w.writeText D fmt sep path rs) w = w.writeText D fmt sep path calls.flatten := by
  induction calls generalizing w with
  | nil => rfl
  | cons c calls ih =>
    rw [List.foldlM_cons, List.flatten_cons]
    unfold ArkWriter.writeText
    rw [List.foldlM_append]
    congr 1
    funext w'
    have := ih w'
    unfold ArkWriter.writeText at this
    exact this

/-- **C135 (random access).** The script file written next to the text archive finds every array, for any list of written keys. -/
theorem C135_text_random_access (D : Decoder) (fmt : Dt → Bytes → Str) (rt : Dt → Bytes → Bytes) (sep : Char) (path : Str) (hp : PathOk sep path)
    (items : List (Str × KMat × Nd)) (hne : items ≠ []) (h : ∀ it ∈ items, TextItem D fmt rt it) (hsep : ∀ it ∈ items, sep ∉ it.1)
    (hnd : (items.map (·.1)).Nodup) :
    ∃ w x, (ArkWriter.mk [] []).writeText D fmt sep path (items.map (fun it => (it.1, it.2.1))) = some w ∧
      Scp.load sep ':' w.script = some x ∧
      ∀ (pk : Peek) (tr : Nd → Nd) (fs : Files) (permissive : Bool) (its : List (Str × KMat × Nd)),
        fs path = some w.ark → (∀ it ∈ its, it ∈ items) →
        randomRead pk D tr fs x permissive 0 0 (its.map (·.1)) = some (its.map (fun it => tr (it.2.2.reread rt))) := by
  obtain ⟨w, bs, offs, hw, ha, henc, hsc, hat⟩ := writeText_spec sep path items h [] [] EncR.nil ⟨[], []⟩
  have hl : offs.length = items.length := hat.length_eq.symm
  have hscr : w.script = (Scp.Scp.mk (items.map (·.1)) (items.map (fun _ => path)) (some offs) none none).save sep ':' := by
    rw [hsc, ← script_is_save sep path items offs hl]; rfl
  have hwf : (Scp.Scp.mk (items.map (·.1)) (items.map (fun _ => path)) (some offs) none none).WF :=
    ⟨by simp, by simp [hl], by simp⟩
  have hsav : Scp.Savable sep ':' (Scp.Scp.mk (items.map (·.1)) (items.map (fun _ => path)) (some offs) none none) := by
    refine ⟨?_, ?_, by simp, ⟨hp.sep.1, hp.sep.2, by decide, by decide, by decide⟩⟩
    · intro k hkm
      obtain ⟨it, hit, rfl⟩ := List.mem_map.1 hkm
      obtain ⟨_, _, h3, _⟩ := isToken_writeToken (h it hit).key
      refine ⟨hsep it hit, fun hc => ?_, fun hc => ?_⟩
      · have := h3 _ hc; revert this; decide
      · have := h3 _ hc; revert this; decide
    · intro p hpm
      obtain ⟨it, hit, rfl⟩ := List.mem_map.1 hpm
      exact hp.path
  obtain ⟨x, hx, hxk, hxp, hxo, hxr⟩ := Scp.C04_scp_round_trip sep ':' _ hwf (by simpa using hne) hsav
  have hxr : x.range = none := by rw [hxr]; simp
  rw [← hscr] at hx
  refine ⟨w, x, hw, hx, fun pk tr fs permissive its hfs hits => ?_⟩
  have hcache : x.cache = none := by
    unfold Scp.load at hx
    simp only [Option.bind_eq_bind, Option.bind_eq_some_iff] at hx
    obtain ⟨_, _, _, _, hx⟩ := hx
    exact create_cache hx
  unfold randomRead
  have key : ∀ it ∈ its, randomReadOne pk D tr fs x permissive 0 0 it.1 = some (tr (it.2.2.reread rt)) := by
    intro it hit
    have hmem := hits it hit
    obtain ⟨i, hi, hieq⟩ := List.mem_iff_getElem.1 hmem
    have hlen := hat.length_eq
    have hidx : dictGet (enumDict x.key) it.1 = some i := by
      have hk' : x.key[i]? = some it.1 := by
        rw [hxk, List.getElem?_map, List.getElem?_eq_getElem hi, hieq]; rfl
      exact enumDict_get_nodup (by rw [hxk]; exact hnd) hk'
    have hgi : (x.getIndex it.1).1 = some i := by
      unfold Scp.Scp.getIndex; rw [hcache]; exact hidx
    have hco : (x.contains it.1).1 = true := by
      unfold Scp.Scp.contains; rw [hcache]; simp [hidx]
    have ho : offs[i]? = some offs[i] := List.getElem?_eq_getElem (by omega)
    have hpos : x.getByPos i = some (it.1, path, some offs[i], none) :=
      getByPos_of hxk hxp hxo hxr (by rw [List.getElem?_map, List.getElem?_eq_getElem hi, hieq]; rfl)
        (by rw [List.getElem?_map, List.getElem?_eq_getElem hi]; rfl) ho
    have hAt : AtT fmt w.ark offs[i] it.2.2 := by
      have := List.forall₂_iff_get.1 hat
      have := this.2 i hi (by omega)
      simp only [List.get_eq_getElem, hieq] at this
      exact this
    obtain ⟨pre, post, hark, hpre, _⟩ := hAt
    unfold randomReadOne
    rw [if_pos hco, hgi]
    simp only [Option.bind_eq_bind, Option.bind_some, hpos, combineRanges, hfs, natOf_nat]
    rw [hark, ← hpre, List.drop_left' rfl, readRecord_text (h it hmem)]
    rfl
  rw [List.mapM_map]
  exact mapM_eq_some_map key

/-! ### limits -/

/-- Row ranges are not supported in text mode. -/
theorem C135_slices_raise (D : Decoder) (pk : Peek) (tr : Nd → Nd) (off n : Nat) (h : 0 < off ∨ 0 < n) (seqMode : Bool) (s : Bytes)
    (hs : s.take 2 ≠ [0, 66]) : readRecord pk D tr off n seqMode s = none := by
  have h1 : initInput pk s = (false, s) := by rw [C19_marker, if_neg hs]
  unfold readRecord
  simp only [h1, readText, if_pos h]
  rfl

/-- A matrix without rows but with columns is written as `[]`, which the reader refuses. -/
theorem C135_no_rows_raises (D : Decoder) (fmt : Dt → Bytes → Str) (dt : Dt) (cols : Nat) (hc : 0 < cols) :
    ∃ body, (KMat.plain (.mat dt cols [])).writeText D fmt = some body ∧
      ∀ (pk : Peek) (tr : Nd → Nd) (seqMode : Bool) (rest : Bytes), readRecord pk D tr 0 0 seqMode (body ++ rest) = none := by
  have e : textBody fmt (.mat dt cols []) = [' ', '[', ']'] ++ ['\n'] := by
    rw [textBody_mat, if_neg (by omega)]
    rfl
  refine ⟨toBytes ([' ', '[', ']'] ++ ['\n']), ?_, fun pk tr seqMode rest => ?_⟩
  · show encodeAscii (textBody fmt (.mat dt cols [])) = _
    rw [e]
    exact encode_toBytes (by decide)
  · rw [readRecord_noMarker (noMarker pk rfl rest)]
    unfold readText
    rw [if_neg (by omega), linesB_text (by decide) (by decide), textFirst, decode_toBytes (by decide)]
    rfl

/-- A matrix without columns comes back as a vector of length zero. -/
theorem C135_no_columns (D : Decoder) (fmt : Dt → Bytes → Str) (dt : Dt) (rows : List (List Bytes)) :
    ∃ body, (KMat.plain (.mat dt 0 rows)).writeText D fmt = some body ∧
      ∀ (pk : Peek) (tr : Nd → Nd) (seqMode : Bool) (rest : Bytes), readRecord pk D tr 0 0 seqMode (body ++ rest) = some (tr (.vec .f32 []), rest) := by
  have e : textBody fmt (.mat dt 0 rows) = [' ', '[', ' ', ']', '\n'] := by
    rw [textBody_mat, if_pos rfl]
  refine ⟨toBytes [' ', '[', ' ', ']', '\n'], ?_, fun pk tr seqMode rest => ?_⟩
  · show encodeAscii (textBody fmt (.mat dt 0 rows)) = _
    rw [e]
    exact encode_toBytes (by decide)
  · rw [readRecord_noMarker (noMarker pk rfl rest)]
    unfold readText
    rw [if_neg (by omega), textFirst_empty, Option.map_some, linesB_flatten]
    rfl

theorem textRows_cut {D : Decoder} {fmt : Dt → Bytes → Str} {rt : Dt → Bytes → Bytes} {dt : Dt} (rs : List (List Bytes)) (acc : List (List Bytes))
    (hne : ∀ x ∈ rs, x ≠ []) (h : ∀ x ∈ rs, ∀ e ∈ x, NumOk D fmt rt dt e) :
    textRows D false acc (linesB (toBytes (rs.flatMap (fun r => [' '] ++ r.flatMap (fun e => fmt dt e ++ [' ']) ++ ['\n'])))) = some (.vec .f32 [], []) := by
  induction rs generalizing acc with
  | nil => rfl
  | cons r rs ih =>
    have hr := h r List.mem_cons_self
    have hasc : ∀ c ∈ [' '] ++ r.flatMap (fun e => fmt dt e ++ [' ']), c.toNat < 128 ∧ c ≠ '\n' := by
      intro c hc
      rcases List.mem_append.1 hc with hc | hc
      · exact lit2 c hc
      · exact row_ascii hr c hc
    rw [List.flatMap_cons, toBytes_append, linesB_text (fun c hc => (hasc c hc).1) (fun hm => (hasc _ hm).2 rfl),
      textRows_cons (t := [' '] ++ r.flatMap (fun e => fmt dt e ++ [' ']) ++ ['\n']) (arr := r.map (fmt dt)),
      textArr_more false acc (hne r List.mem_cons_self) hr]
    · exact ih _ (fun x hx => hne x (List.mem_cons_of_mem _ hx)) (fun x hx => h x (List.mem_cons_of_mem _ hx))
    · apply decode_toBytes
      intro c hc
      rcases List.mem_append.1 hc with hc | hc
      · exact (hasc c hc).1
      · rw [List.mem_singleton] at hc; rw [hc]; decide
    · rw [splitWs_row hr]
      show _ ++ [] = _
      rw [List.append_nil]
    · intro hm
      exact hne r List.mem_cons_self (List.map_eq_nil_iff.1 hm)

/-- **C135 (truncation).** A text archive cut at the end of a line inside a matrix - after any number of complete records - is not noticed: the matrix
comes out as an empty vector. -/
theorem C135_truncated_not_noticed (D : Decoder) (fmt : Dt → Bytes → Str) (rt : Dt → Bytes → Bytes) (sep : Char) (path : Str) (items : List (Str × KMat × Nd))
    (h : ∀ it ∈ items, TextItem D fmt rt it) (key : Str) (hk : isToken key = true) (dt : Dt) (kept : List (List Bytes))
    (hne : ∀ x ∈ kept, x ≠ []) (hn : ∀ x ∈ kept, ∀ e ∈ x, NumOk D fmt rt dt e) :
    ∃ w t, (ArkWriter.mk [] []).writeText D fmt sep path (items.map (fun it => (it.1, it.2.1))) = some w ∧ writeToken key = some t ∧
      ∀ (pk : Peek) (tr : Nd → Nd), ∃ r',
        (ArkReader.open (w.ark ++ (t ++ toBytes ([' ', '[', '\n'] ++ kept.flatMap (fun r => [' '] ++ r.flatMap (fun e => fmt dt e ++ [' ']) ++ ['\n']))))).read
          pk D tr 0 0 0 = some (items.map (fun it => (it.1, tr (it.2.2.reread rt))) ++ [(key, tr (.vec .f32 []))], r') := by
  obtain ⟨hkne, _, _, t, ht⟩ := isToken_writeToken hk
  have hlast : EncR D [(key, .vec .f32 [])]
      (t ++ (toBytes ([' ', '[', '\n'] ++ kept.flatMap (fun r => [' '] ++ r.flatMap (fun e => fmt dt e ++ [' ']) ++ ['\n'])) ++ [])) := by
    refine EncR.cons hkne ht (fun pk tr => ?_) EncR.nil
    rw [readRecord_noMarker (noMarker pk rfl [])]
    unfold readText
    have e : ([' ', '[', '\n'] ++ kept.flatMap (fun r => [' '] ++ r.flatMap (fun e => fmt dt e ++ [' ']) ++ ['\n'])) =
      ([' ', '['] ++ ['\n']) ++ kept.flatMap (fun r => [' '] ++ r.flatMap (fun e => fmt dt e ++ [' ']) ++ ['\n']) := rfl
    rw [if_neg (by omega), List.append_nil, e, toBytes_append, linesB_text (by decide) (by decide),
      textFirst_cons (t := [' ', '['] ++ ['\n']) (ws := []) (decode_toBytes (by decide)) (by decide), if_pos rfl, textRows_cut kept [] hne hn]
    rfl
  rw [List.append_nil] at hlast
  obtain ⟨w, bs, offs, hw, ha, henc, _, _⟩ := writeText_spec sep path items h _ _ hlast ⟨[], []⟩
  refine ⟨w, t, hw, ht, fun pk tr => ?_⟩
  have hrest : (ArkReader.open (w.ark ++ (t ++ toBytes ([' ', '[', '\n'] ++ kept.flatMap (fun r => [' '] ++ r.flatMap (fun e => fmt dt e ++ [' ']) ++ ['\n']))))).rest
      = bs ++ (t ++ toBytes ([' ', '[', '\n'] ++ kept.flatMap (fun r => [' '] ++ r.flatMap (fun e => fmt dt e ++ [' ']) ++ ['\n']))) := by
    have : w.ark = bs := by simpa using ha
    rw [this]; rfl
  rw [← hrest] at henc
  obtain ⟨r', h1, _, _, _⟩ := ArkReader.read_encR henc pk tr 0
  refine ⟨r', ?_⟩
  rw [h1, if_pos rfl, List.take_length, List.map_append, List.map_map]
  rfl

/-- A key at the end of the file gives a record too. -/
theorem C135_key_only (D : Decoder) (key : Str) (hk : isToken key = true) :
    ∃ t, writeToken key = some t ∧ ∀ (pk : Peek) (tr : Nd → Nd), ∃ r',
      (ArkReader.open t).read pk D tr 0 0 0 = some ([(key, tr (.vec .f32 []))], r') := by
  obtain ⟨hkne, _, _, t, ht⟩ := isToken_writeToken hk
  refine ⟨t, ht, fun pk tr => ?_⟩
  have hlast : EncR D [(key, .vec .f32 [])] (t ++ ([] ++ [])) := by
    refine EncR.cons hkne ht (fun pk tr => ?_) EncR.nil
    rw [readRecord_noMarker (by rw [C19_marker]; rfl)]
    rfl
  simp only [List.append_nil] at hlast
  have : EncR D [(key, .vec .f32 [])] (ArkReader.open t).rest := hlast
  obtain ⟨r', h1, _, _, _⟩ := ArkReader.read_encR this pk tr 0
  exact ⟨r', by rw [h1]; simp⟩

/-! ### numbers -/

/-- how numbers are printed and read: `'%f'` of the value (signed zeros, infinities and nan aside), and the float32 nearest to a numeral, up to
the largest finite one (an integer). -/
structure NumModel (D : Decoder) (fmt : Dt → Bytes → Str) (val : Dt → Bytes → ℚ) (r32 : ℚ → Bytes) (big : Nat) : Prop where
  print : ∀ dt e, fmt dt e = Trials.printF (val dt e)
  read : ∀ s, D.num s = (Trials.parseF s).map r32
  bounded : ∀ e, |val .f32 e| ≤ (big : ℚ)
  nearest : ∀ q e, |q| ≤ (big : ℚ) → |val .f32 (r32 q) - q| ≤ |val .f32 e - q|

theorem printF_ascii (v : ℚ) : ∀ c ∈ Trials.printF v, c.toNat < 128 := by
  intro c hc
  have hd : ∀ d < 10, (digitChar d).toNat < 128 := by decide
  unfold Trials.printF at hc
  dsimp only at hc
  rw [List.mem_append] at hc
  rcases hc with hc | hc
  · split at hc
    · simp at hc; subst hc; decide
    · simp at hc
  · rw [List.mem_append, List.mem_cons] at hc
    rcases hc with hc | rfl | hc
    · obtain ⟨d, h10, rfl⟩ := mem_printNat hc; exact hd d h10
    · decide
    · simp only [Trials.pad6, List.mem_cons, List.not_mem_nil, or_false] at hc
      rcases hc with rfl | rfl | rfl | rfl | rfl | rfl <;> exact hd _ (by omega)

theorem round6_le {v : ℚ} {n : Nat} (h : |v| ≤ n) : |Trials.round6 v| ≤ n := by
  unfold Trials.round6
  have h0 : (0 : ℤ) ≤ roundEven (|v| * 1000000) := le_roundEven (by simp)
  have h1 : roundEven (|v| * 1000000) ≤ (n * 1000000 : ℤ) := by
    apply roundEven_le
    push_cast
    linarith
  have h0' : (0 : ℚ) ≤ (roundEven (|v| * 1000000) : ℤ) := by exact_mod_cast h0
  have h1' : ((roundEven (|v| * 1000000) : ℤ) : ℚ) ≤ n * 1000000 := by exact_mod_cast h1
  rw [abs_mul, abs_of_nonneg (by positivity : (0 : ℚ) ≤ (roundEven (|v| * 1000000) : ℤ) / 1000000)]
  have : |(if v < 0 then (-1 : ℚ) else 1)| = 1 := by split <;> simp
  rw [this, one_mul, div_le_iff₀ (by norm_num)]
  exact h1'

/-- **C135 (precision).** Every single precision number that goes through a text archive comes back within one millionth. -/
theorem C135_text_precision (D : Decoder) (fmt : Dt → Bytes → Str) (val : Dt → Bytes → ℚ) (r32 : ℚ → Bytes) (big : Nat) (h : NumModel D fmt val r32 big) :
    ∃ rt : Dt → Bytes → Bytes, (∀ dt e, NumOk D fmt rt dt e) ∧ ∀ e, |val .f32 (rt .f32 e) - val .f32 e| ≤ 1 / 1000000 := by
  refine ⟨fun dt e => r32 (Trials.round6 (val dt e)), ?_, ?_⟩
  · intro dt e
    have hw := Trials.word_printF (val dt e)
    have hp := Trials.parseF_printF (val dt e)
    refine ⟨?_, ?_, ?_, ?_⟩
    · rw [h.print]; exact hw.1
    · rw [h.print]; exact fun c hc => ⟨printF_ascii _ c hc, hw.2 c hc⟩
    · rw [h.print]
      intro he
      rw [he] at hp
      have h0 : Trials.parseF [']'] = none := by decide +kernel
      rw [h0] at hp
      cases hp
    · rw [h.print, h.read, hp]; rfl
  · intro e
    have h1 := h.nearest (Trials.round6 (val .f32 e)) e (round6_le (h.bounded e))
    have h2 := Trials.round6_close (val .f32 e)
    rw [abs_sub_comm] at h2
    have h3 := h1.trans h2
    rw [abs_le] at h2 h3 ⊢
    constructor <;> linarith [h2.1, h2.2, h3.1, h3.2]

/-! ### example -/

/-- a toy number format: one byte per element, the value of an element is the number of its first byte. -/
def exVal : Dt → Bytes → ℚ := fun _ e => match e with | [] => 0 | b :: _ => (b.toNat : ℚ)
def exR32 : ℚ → Bytes := fun q => [UInt8.ofNat (min 255 (roundEven q).toNat)]
def exD : Decoder := ⟨fun _ _ _ => [], fun _ _ _ => [], fun _ _ _ _ => [], fun s => (Trials.parseF s).map exR32⟩

example : (ArkWriter.mk [] []).writeText exD (fun dt e => Trials.printF (exVal dt e)) ' ' ['a'] [(['k'], .plain (.mat .f32 2 [[[1], [2]], [[3], [4]]]))]
    = some ⟨toBytes "k  [\n 1.000000 2.000000 \n 3.000000 4.000000 ]\n".toList, "k a:2\n".toList⟩ := by decide +kernel

example : TextItem exD (fun dt e => Trials.printF (exVal dt e)) (fun _ e => exR32 (exVal .f32 e)) (['k'], .plain (.mat .f32 2 [[[1], [2]], [[3], [4]]]), .mat .f32 2 [[[1], [2]], [[3], [4]]]) := by
  have h : ∀ e ∈ [[1], [2], [3], [4]], NumOk exD (fun dt e => Trials.printF (exVal dt e)) (fun _ e => exR32 (exVal .f32 e)) .f32 e := by
    unfold NumOk; decide +kernel
  exact ⟨by decide, rfl, ⟨by decide, by decide⟩, h⟩

example : ((ArkReader.open (toBytes "k  [\n 1.000000 2.000000 \n 3.000000 4.000000 ]\nq  [ 7.000000 ]\n".toList)).read pkOne exD id 0 0 0).map (·.1)
    = some [(['k'], .mat .f32 2 [[[1], [2]], [[3], [4]]]), (['q'], .vec .f32 [[7]])] := by decide +kernel

theorem exVal_nat (dt : Dt) (e : Bytes) : ∃ m : Nat, m ≤ 255 ∧ exVal dt e = m := by
  cases e with
  | nil => exact ⟨0, by omega, by simp [exVal]⟩
  | cons b e => exact ⟨b.toNat, by have := b.toNat_lt; omega, rfl⟩

/-- the toy format meets the hypotheses of `C135_text_precision`. -/
theorem exNum : NumModel exD (fun dt e => Trials.printF (exVal dt e)) exVal exR32 255 where
  print := fun _ _ => rfl
  read := fun _ => rfl
  bounded := by
    intro e
    obtain ⟨m, hm, he⟩ := exVal_nat .f32 e
    rw [he, abs_of_nonneg (by positivity)]
    exact_mod_cast hm
  nearest := by
    intro q e hq
    obtain ⟨m, hm, he⟩ := exVal_nat .f32 e
    rw [he]
    have hb := roundEven_bounds q
    rw [abs_le] at hq
    have hhi : roundEven q ≤ 255 := roundEven_le (by simpa using hq.2)
    obtain ⟨k, hk⟩ : ∃ k : Nat, (roundEven q).toNat = k := ⟨_, rfl⟩
    have hk255 : k ≤ 255 := by omega
    have hv : exVal .f32 (exR32 q) = k := by
      show (((UInt8.ofNat (min 255 (roundEven q).toNat)).toNat : Nat) : ℚ) = k
      rw [hk, Nat.min_eq_right hk255, UInt8.toNat_ofNat']
      congr 1
      omega
    rw [hv]
    rcases le_or_gt 0 (roundEven q) with h0 | h0
    · have hkq : (k : ℤ) = roundEven q := by omega
      have hkq' : (k : ℚ) = (roundEven q : ℚ) := by exact_mod_cast hkq
      rw [← hkq'] at hb
      rcases lt_trichotomy m k with h | h | h
      · have h1 : (m : ℚ) + 1 ≤ k := by exact_mod_cast h
        rw [abs_of_nonpos (by linarith [hb.1] : (m : ℚ) - q ≤ 0), abs_le]
        constructor <;> linarith [hb.1, hb.2]
      · rw [h]
      · have h1 : (k : ℚ) + 1 ≤ m := by exact_mod_cast h
        rw [abs_of_nonneg (by linarith [hb.2] : 0 ≤ (m : ℚ) - q), abs_le]
        constructor <;> linarith [hb.1, hb.2]
    · have hk0 : k = 0 := by omega
      have hq0 : q ≤ 0 := by
        have : (roundEven q : ℚ) ≤ -1 := by exact_mod_cast (by omega : roundEven q ≤ -1)
        linarith [hb.2]
      have hm0 : (0 : ℚ) ≤ m := by positivity
      rw [hk0, abs_of_nonneg (by simpa using hq0 : (0 : ℚ) ≤ ((0 : Nat) : ℚ) - q), abs_of_nonneg (by linarith : 0 ≤ (m : ℚ) - q)]
      push_cast
      linarith

end Hyp.Kaldi
