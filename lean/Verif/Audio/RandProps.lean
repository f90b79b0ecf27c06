import Verif.Audio.SegProps
import Verif.Copy.Prefix
import Mathlib.Data.List.Forall2

/-! C131: the random access audio reader. -/

namespace Hyp.Audio
open Hyp.Text Hyp.Segments

variable {K : Type} [Field K] [LinearOrder K] [IsStrictOrderedRing K] [FloorRing K]

theorem lookup_spec {x : Scp.Scp Str Str} (hx : x.WF) (hc : x.cache = none) (k : Str) :
    ((x.getByKey k).1 = none ↔ k ∉ x.key) ∧ (∀ v, (x.getByKey k).1 = some v → (k, v) ∈ x.entries) := by
  have h := Scp.C05_lookup [x] (by intro s hs; simp at hs; subst hs; exact ⟨hx, Or.inl hc⟩) x (Scp.Reach.source (by simp)) k
  refine ⟨?_, ?_⟩
  · convert h.1
  · intro v hv
    apply h.2.1
    convert hv

theorem lookup_nodup {x : Scp.Scp Str Str} (hx : x.WF) (hc : x.cache = none) (hn : x.key.Nodup) (k : Str) (v : Str × Option Nat × Option (Nat × Int)) :
    (x.getByKey k).1 = some v ↔ (k, v) ∈ x.entries := by
  refine ⟨(lookup_spec hx hc k).2 v, ?_⟩
  intro h
  rcases hg : (x.getByKey k).1 with _ | u
  · have := (lookup_spec hx hc k).1.1 hg
    rw [Scp.entries_key hx] at this
    exact absurd (List.mem_map.2 ⟨_, h, rfl⟩) this
  · have hu := (lookup_spec hx hc k).2 u hg
    rw [Scp.entries_key hx] at hn
    have := List.inj_on_of_nodup_map hn hu h rfl
    simp only [Prod.mk.injEq, true_and] at this
    rw [this]

/-- **C130 (the recording of a segment).** When the recordings of the script are different, a segment is cut from the recording that its file id names; without such a
recording it raises. -/
theorem C130_recording_of_segment (w : World K) (text : Str) (x : Scp.Scp Str Str) (hl : Scp.load ' ' ':' text = some x) (hn : x.key.Nodup) (scale : K)
    (s : Seg K) (y : Wave K) :
    readSegment w scale x s = some y ↔
      ∃ path o rg v, (s.file.toList, path, o, rg) ∈ x.entries ∧ readSpec w scale path = some v ∧ cutSegment v s.tbeg s.tend = some y := by
  unfold readSegment
  rw [Option.bind_eq_some_iff]
  constructor
  · rintro ⟨⟨path, o, rg⟩, he, h⟩
    obtain ⟨v, h1, h2⟩ := Option.bind_eq_some_iff.1 h
    exact ⟨path, o, rg, v, (lookup_nodup (Copy.load_wf hl) (Copy.load_cache hl) hn _ _).1 he, h1, h2⟩
  · rintro ⟨path, o, rg, v, he, h1, h2⟩
    exact ⟨(path, o, rg), (lookup_nodup (Copy.load_wf hl) (Copy.load_cache hl) hn _ _).2 he, by simp [h1, h2]⟩

theorem mapM_forall₂ {α β : Type} (f : α → Option β) (l : List α) (r : List β) :
    l.mapM f = some r ↔ List.Forall₂ (fun a b => f a = some b) l r := by
  rw [mapM_eq_some_iff]
  constructor
  · intro h
    induction l generalizing r with
    | nil => cases r with
      | nil => exact List.Forall₂.nil
      | cons b r => simp at h
    | cons a l ih => cases r with
      | nil => simp at h
      | cons b r =>
        simp only [List.map_cons, List.cons.injEq] at h
        exact List.Forall₂.cons h.1 (ih _ h.2)
  · intro h
    induction h with
    | nil => rfl
    | cons h1 _ ih => rw [List.map_cons, List.map_cons, h1, ih]

/-- **C131 (recordings).** Random access without segments: the call gives, for every key in the order asked, a signal read from the specifier of an entry with that
key; it raises if a key is not in the script; and with different recordings in the script it raises in no other case than that an asked one cannot be read. -/
theorem C131_recordings (w : World K) (text : Str) (x : Scp.Scp Str Str) (hl : Scp.load ' ' ':' text = some x) (scale : K) :
    ∃ r : Reader K, openBase text none scale = some r ∧ ∀ keys : List Str,
      (∀ ys, r.readKeys w keys = some ys →
        List.Forall₂ (fun k y => ∃ path o rg, (k, path, o, rg) ∈ x.entries ∧ readSpec w scale path = some y) keys ys) ∧
      ((∃ k ∈ keys, k ∉ x.key) → r.readKeys w keys = none) ∧
      (x.key.Nodup → ∀ ys, r.readKeys w keys = some ys ↔
        List.Forall₂ (fun k y => ∃ path o rg, (k, path, o, rg) ∈ x.entries ∧ readSpec w scale path = some y) keys ys) := by
  have hx := Copy.load_wf hl
  have hc := Copy.load_cache hl
  refine ⟨⟨x, none, scale, 0⟩, by unfold openBase; rw [hl]; rfl, ?_⟩
  intro keys
  have hk : ∀ k y, Reader.readKey w (⟨x, none, scale, 0⟩ : Reader K) k = some y →
      ∃ path o rg, (k, path, o, rg) ∈ x.entries ∧ readSpec w scale path = some y := by
    intro k y h
    unfold Reader.readKey at h
    obtain ⟨⟨path, o, rg⟩, he, h⟩ := Option.bind_eq_some_iff.1 h
    exact ⟨path, o, rg, (lookup_spec hx hc k).2 _ he, h⟩
  refine ⟨?_, ?_, ?_⟩
  · intro ys h
    exact ((mapM_forall₂ _ _ _).1 h).imp (fun k y => hk k y)
  · rintro ⟨k, hkm, hkn⟩
    rcases h : Reader.readKeys w (⟨x, none, scale, 0⟩ : Reader K) keys with _ | ys
    · rfl
    · exfalso
      have hf := (mapM_forall₂ _ _ _).1 h
      have hm := mapM_eq_some_iff.1 h
      have : Reader.readKey w (⟨x, none, scale, 0⟩ : Reader K) k ∈ ys.map some := by
        rw [← hm]; exact List.mem_map.2 ⟨k, hkm, rfl⟩
      obtain ⟨y, _, hy⟩ := List.mem_map.1 this
      obtain ⟨p, o, rg, he, _⟩ := hk k y hy.symm
      apply hkn
      rw [Scp.entries_key hx]
      exact List.mem_map.2 ⟨_, he, rfl⟩
  · intro hn ys
    refine (mapM_forall₂ _ _ _).trans ?_
    have : (fun k y => Reader.readKey w (⟨x, none, scale, 0⟩ : Reader K) k = some y) =
        (fun k y => ∃ path o rg, (k, path, o, rg) ∈ x.entries ∧ readSpec w scale path = some y) := by
      funext k y
      refine propext ⟨hk k y, ?_⟩
      rintro ⟨path, o, rg, he, h⟩
      unfold Reader.readKey
      refine Option.bind_eq_some_iff.2 ⟨(path, o, rg), (lookup_nodup hx hc hn _ _).2 he, h⟩
    rw [this]

/-- **C131 (segments).** Random access with segments: the call gives `ys` iff for every key in the order asked there is exactly one row with that segment id in the
segments file, and `ys` has the signal of that segment. -/
theorem C131_segments (w : World K) (text : Str) (x : Scp.Scp Str Str) (hl : Scp.load ' ' ':' text = some x) (scale : K)
    (rows : List (Seg K)) (hv : ∀ s ∈ rows, s.tbeg ≤ s.tend) :
    ∃ r : Reader K, openBase text (some rows) scale = some r ∧ ∀ (keys : List Str) (ys : List (Wave K)),
      r.readKeys w keys = some ys ↔
        List.Forall₂ (fun k y => ∃ s, rows.filter (fun s => s.id == k) = [s] ∧ readSegment w scale x s = some y) keys ys := by
  have hm : mkSegList rows false = some (⟨rows, false⟩ : SegList K) := by
    unfold mkSegList
    rw [if_pos (valid_iff.2 hv)]
  refine ⟨⟨x, some ⟨rows, false⟩, scale, 0⟩, by unfold openBase; rw [hl]; simp only [Option.bind_some, hm]; rfl, ?_⟩
  intro keys ys
  refine (mapM_forall₂ _ _ _).trans ?_
  have : (fun k y => Reader.readKey w (⟨x, some ⟨rows, false⟩, scale, 0⟩ : Reader K) k = some y) =
      (fun k y => ∃ s, rows.filter (fun s => s.id == k) = [s] ∧ readSegment w scale x s = some y) := by
    funext k y
    have e : rowsAt (⟨rows, false⟩ : SegList K) k = rows.filter (fun s => s.id == k) := by
      unfold rowsAt
      congr 1
      funext s
      rw [Bool.eq_iff_iff]
      simp [indexOf]
    apply propext
    show (match rowsAt (⟨rows, false⟩ : SegList K) k with
      | [s] => readSegment w scale x s
      | _ => none) = some y ↔ _
    rw [e]
    generalize rows.filter (fun s => s.id == k) = l
    rcases l with _ | ⟨s, _ | ⟨t, l⟩⟩
    · simp
    · constructor
      · intro h
        exact ⟨s, rfl, h⟩
      · rintro ⟨s', h1, h2⟩
        simp only [List.cons.injEq, and_true] at h1
        subst h1
        exact h2
    · simp
  rw [this]

theorem filter_id_nodup {rows : List (Seg K)} (hn : (rows.map Seg.id).Nodup) {s : Seg K} (hs : s ∈ rows) :
    rows.filter (fun t => t.id == s.id) = [s] := by
  induction rows with
  | nil => cases hs
  | cons b rows ih =>
    rw [List.map_cons, List.nodup_cons] at hn
    rw [List.filter_cons]
    rcases List.mem_cons.1 hs with h | h
    · subst h
      rw [if_pos (by simp)]
      congr 1
      rw [List.filter_eq_nil_iff]
      intro t ht he
      exact hn.1 (List.mem_map.2 ⟨t, ht, by simpa using he⟩)
    · rw [if_neg]
      · exact ih hn.2 h
      · intro he
        exact hn.1 (List.mem_map.2 ⟨s, h, (by simpa using he : b.id = s.id).symm⟩)

/-- **C131 (agreement).** With different segment ids (or, without segments, different recordings), asking for the keys that a sequential pass gave gives the same signals. -/
theorem C131_agree (w : World K) (text : Str) (x : Scp.Scp Str Str) (hl : Scp.load ' ' ':' text = some x) (scale : K)
    (segs : Option (List (Seg K))) (hn : x.key.Nodup) (hs : ∀ rows, segs = some rows → (rows.map Seg.id).Nodup)
    (out : List (Str × Wave K)) (h : ((openSeq text segs scale 1 1).bind (fun r => r.iter w r.fuel)).map (fun p => p.1) = some out) :
    (openBase text segs scale).bind (fun r => r.readKeys w (out.map (fun p => p.1))) = some (out.map (fun p => p.2)) := by
  cases segs with
  | none =>
    rw [C129_iteration w text x hl scale] at h
    obtain ⟨r, hr, hk⟩ := C131_recordings w text x hl scale
    rw [hr, Option.bind_some, (hk _).2.2 hn]
    have hf := (mapM_forall₂ _ _ _).1 h
    rw [List.forall₂_map_left_iff, List.forall₂_map_right_iff, List.forall₂_same]
    intro p hp
    have hm := mapM_eq_some_iff.1 h
    have : some p ∈ out.map some := List.mem_map_of_mem hp
    rw [← hm] at this
    obtain ⟨e, he, hep⟩ := List.mem_map.1 this
    obtain ⟨y, hy, rfl⟩ := Option.map_eq_some_iff.1 hep
    exact ⟨e.2.1, e.2.2.1, e.2.2.2, he, hy⟩
  | some rows =>
    have hv : ∀ s ∈ rows, s.tbeg ≤ s.tend := by
      by_contra hv
      have : mkSegList rows false = none := by
        unfold mkSegList
        rw [if_neg (by rw [valid_iff]; exact hv)]
      unfold openSeq openBase at h
      rw [hl] at h
      simp [this] at h
    rw [C130_iteration w text x hl scale rows hv] at h
    obtain ⟨r, hr, hk⟩ := C131_segments w text x hl scale rows hv
    rw [hr, Option.bind_some, hk]
    rw [List.forall₂_map_left_iff, List.forall₂_map_right_iff, List.forall₂_same]
    intro p hp
    have hm := mapM_eq_some_iff.1 h
    have : some p ∈ out.map some := List.mem_map_of_mem hp
    rw [← hm] at this
    obtain ⟨s, hs', hep⟩ := List.mem_map.1 this
    obtain ⟨y, hy, rfl⟩ := Option.map_eq_some_iff.1 hep
    exact ⟨s, filter_id_nodup (hs rows rfl) hs', hy⟩

end Hyp.Audio
