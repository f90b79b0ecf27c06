import Verif.Copy.Raises

/-! C126 (missing keys in random access), C127 (path prefix). -/

namespace Hyp.Copy
open Hyp.Text Hyp.Kaldi Hyp.Spec

/-! ### two readers in step -/

theorem loopG_sim {R R' X : Type} {one : R → Option (X × R)} {one' : R' → Option (X × R')} {left : R → Nat} {left' : R' → Nat}
    {S : R → R' → Prop} (hl : ∀ r r', S r r' → left r = left' r')
    (h0 : ∀ r r', S r r' → one r = none → one' r' = none)
    (h1 : ∀ r r' p, S r r' → one r = some p → ∃ p', one' r' = some p' ∧ p'.1 = p.1 ∧ S p.2 p'.2)
    (k : Nat) (r : R) (r' : R') (h : S r r') :
    (loopG one left k r).map (·.1) = (loopG one' left' k r').map (·.1) := by
  induction k generalizing r r' with
  | zero => rfl
  | succ k ih =>
    simp only [loopG, ← hl r r' h]
    split
    · rfl
    · rcases hx : one r with _ | p
      · rw [h0 r r' h hx]; rfl
      · obtain ⟨p', hp', he, hs⟩ := h1 r r' p h hx
        rw [hp', Option.bind_some, Option.bind_some]
        have := ih p.2 p'.2 hs
        rcases hq : loopG one left k p.2 with _ | q
        · rw [hq] at this
          rcases hq' : loopG one' left' k p'.2 with _ | q'
          · rfl
          · rw [hq'] at this; simp at this
        · rw [hq] at this
          rcases hq' : loopG one' left' k p'.2 with _ | q'
          · rw [hq'] at this; simp at this
          · rw [hq'] at this
            simp only [Option.map_some, Option.some.injEq] at this
            simp [he, this]

theorem getByPos_mapPath (x : Scp.Scp Str Str) (f : Str → Str) (i : Nat) :
    (x.mapPath f).getByPos i = (x.getByPos i).map (fun en => (en.1, f en.2.1, en.2.2)) := by
  unfold Scp.Scp.getByPos Scp.Scp.mapPath
  simp only [Option.bind_eq_bind, List.getElem?_map]
  rcases Scp.optCol x.offset i with _ | o
  · rfl
  rcases Scp.optCol x.range i with _ | r
  · rfl
  rcases x.key[i]? with _ | k
  · rfl
  rcases x.path[i]? with _ | p <;> rfl

theorem getByPos_path {x : Scp.Scp Str Str} {i : Nat} {en} (h : x.getByPos i = some en) : x.path[i]? = some en.2.1 := by
  unfold Scp.Scp.getByPos at h
  simp only [Option.bind_eq_bind, Option.bind_eq_some_iff] at h
  obtain ⟨_, _, _, _, _, _, p, hp, h⟩ := h
  obtain rfl := Option.some.inj h
  exact hp

theorem bin_congr {d d' : Disk} {a b : Str} (h : d' b = d a) : d'.bin b = d.bin a := by unfold Disk.bin; rw [h]
theorem hdf_congr {d d' : Disk} {a b : Str} (h : d' b = d a) : d'.hdf b = d.hdf a := by unfold Disk.hdf; rw [h]
theorem txt_congr {d d' : Disk} {a b : Str} (h : d' b = d a) : d'.txt b = d.txt a := by unfold Disk.txt; rw [h]

theorem split_path {x y : Scp.Scp Str Str} {i P : Nat} (h : (if 1 < P then x.split i P false else some x) = some y) :
    ∀ f ∈ y.path, f ∈ x.path := by
  split at h
  · unfold Scp.Scp.split at h
    obtain ⟨q, _, h⟩ := Option.bind_eq_some_iff.1 h
    have := (Scp.select_some h).2.2.2.2
    intro f hf
    obtain ⟨j, _, hj⟩ := (gather_mem this).1 hf
    exact List.mem_of_getElem? hj
  · obtain rfl := Option.some.inj h
    exact fun _ h => h

/-! ### the ark script reader -/

theorem ark_prefix (e : Env) {d d' : Disk} {p : Str} {x : Scp.Scp Str Str} (hloc : ∀ f ∈ x.path, d' f = d (p ++ f)) (k : Nat) :
    ((⟨x, 0, none⟩ : ScpReader).read e.pk e.D id d'.bin k 0 0).map (·.1) =
      ((⟨x.mapPath (p ++ ·), 0, none⟩ : ScpReader).read e.pk e.D id d.bin k 0 0).map (·.1) := by
  unfold ScpReader.read
  rw [scpLoop_G e d'.bin _ _ (by simp), scpLoop_G e d.bin _ _ (by simp)]
  refine loopG_sim (S := fun r r' => r.scp = x ∧ r' = ⟨x.mapPath (p ++ ·), r.cur, r.opened.map (fun q => (p ++ q.1, q.2))⟩)
    ?_ ?_ ?_ _ _ _ ⟨rfl, rfl⟩
  · rintro r r' ⟨hx, rfl⟩
    simp [scpLeft, hx, Scp.Scp.mapPath]
  all_goals
    have hop : ∀ (op : Option (Str × Bytes × Bytes)) (path : Str) (off : Option Nat), path ∈ x.path →
        Kaldi.openArchive d.bin (op.map (fun q => (p ++ q.1, q.2))) (p ++ path) off = Kaldi.openArchive d'.bin op path off := by
      intro op path off hm
      unfold Kaldi.openArchive
      have hb := bin_congr (hloc path hm)
      cases op with
      | none => simp only [Option.map_none, hb]
      | some q =>
        simp only [Option.map_some, List.append_cancel_left_eq, hb]
  · rintro r r' ⟨hx, rfl⟩ hn
    unfold ScpReader.readOne at hn ⊢
    simp only [getByPos_mapPath, ← hx]
    rcases hg : r.scp.getByPos r.cur with _ | en
    · rfl
    · rw [hg] at hn
      have hm : en.2.1 ∈ x.path := by rw [← hx]; exact List.mem_of_getElem? (getByPos_path hg)
      simp only [Option.map_some, Option.bind_eq_bind, Option.bind_some] at hn ⊢
      rw [hop _ _ _ hm]
      rcases hA : combineRanges en.2.2.2 0 0 with _ | ok
      · rfl
      · simp only [Option.bind_some]
        rcases hB : Kaldi.openArchive d'.bin r.opened en.2.1 en.2.2.1 with _ | cs
        · rfl
        · simp only [Option.bind_some]
          rcases hC : natOf ok.2 with _ | k'
          · rfl
          · simp only [Option.bind_some]
            rcases hE : readRecord e.pk e.D id ok.1 k' true cs.2 with _ | m
            · rfl
            · simp [hA, hB, hC, hE] at hn
  · rintro r r' q ⟨hx, rfl⟩ hn
    unfold ScpReader.readOne at hn ⊢
    simp only [Option.bind_eq_bind, Option.bind_eq_some_iff] at hn
    obtain ⟨en, hg, ok, hok, cs, hcs, k', hk', m, hm', hn⟩ := hn
    obtain rfl := Option.some.inj hn
    have hm : en.2.1 ∈ x.path := by rw [← hx]; exact List.mem_of_getElem? (getByPos_path hg)
    rw [← hx]
    simp only [getByPos_mapPath, hg, Option.map_some, Option.bind_eq_bind, Option.bind_some]
    rw [hok, Option.bind_some, hop _ _ _ hm, hcs, Option.bind_some, hk', Option.bind_some, hm']
    refine ⟨_, rfl, rfl, ?_⟩
    simp

/-! ### the HDF5 script reader -/

theorem h5_prefix (e : Env) {d d' : Disk} {p : Str} {x : Scp.Scp Str Str} (hloc : ∀ f ∈ x.path, d' f = d (p ++ f)) (k : Nat) :
    ((⟨x, 0, none⟩ : H5.SeqScript).read e.D id d'.hdf k (.int 0) (.int 0)).map (·.1) =
      ((⟨x.mapPath (p ++ ·), 0, none⟩ : H5.SeqScript).read e.D id d.hdf k (.int 0) (.int 0)).map (·.1) := by
  unfold H5.SeqScript.read
  rw [scrLoop_G e d'.hdf _ _ _ (by simp), scrLoop_G e d.hdf _ _ _ (by simp)]
  refine loopG_sim (S := fun r r' => r.scp = x ∧ r' = ⟨x.mapPath (p ++ ·), r.cur, r.opened.map (fun q => (p ++ q.1, q.2))⟩)
    ?_ ?_ ?_ _ _ _ ⟨rfl, rfl⟩
  · rintro r r' ⟨hx, rfl⟩
    simp [scrLeft, hx, Scp.Scp.mapPath]
  all_goals
    have hop : ∀ (op : Option (Str × H5.File)) (path : Str), path ∈ x.path →
        H5.openArchive d.hdf (op.map (fun q => (p ++ q.1, q.2))) (p ++ path) = H5.openArchive d'.hdf op path := by
      intro op path hm
      unfold H5.openArchive
      have hb := hdf_congr (hloc path hm)
      cases op with
      | none => simp only [Option.map_none, hb]
      | some q =>
        simp only [Option.map_some, ne_eq, List.append_cancel_left_eq, hb]
  · rintro r r' ⟨hx, rfl⟩ hn
    unfold H5.SeqScript.readOne at hn ⊢
    simp only [getByPos_mapPath, ← hx]
    rcases hg : r.scp.getByPos r.cur with _ | en
    · rfl
    · rw [hg] at hn
      have hm : en.2.1 ∈ x.path := by rw [← hx]; exact List.mem_of_getElem? (getByPos_path hg)
      simp only [Option.map_some, Option.bind_eq_bind, Option.bind_some, H5.Arg.at] at hn ⊢
      rw [hop _ _ hm]
      rcases hA : combineRanges en.2.2.2 0 0 with _ | ok
      · rfl
      · simp only [Option.bind_some]
        rcases hB : H5.openArchive d'.hdf r.opened en.2.1 with _ | f
        · rfl
        · simp only [Option.bind_some]
          rcases hF : f.get en.1 with _ | ds
          · rfl
          · simp only [Option.bind_some]
            rcases hC : natOf ok.2 with _ | k'
            · rfl
            · simp only [Option.bind_some]
              rcases hE : H5.readSet e.D id ok.1 k' ds with _ | m
              · rfl
              · simp [hA, hB, hC, hE, hF] at hn
  · rintro r r' q ⟨hx, rfl⟩ hn
    unfold H5.SeqScript.readOne at hn ⊢
    simp only [Option.bind_eq_bind, Option.bind_eq_some_iff] at hn
    obtain ⟨en, hg, o, ho, n, hn0, ok, hok, f, hf, ds, hds, k', hk', m, hm', hn⟩ := hn
    obtain rfl := Option.some.inj hn
    have hm : en.2.1 ∈ x.path := by rw [← hx]; exact List.mem_of_getElem? (getByPos_path hg)
    rw [← hx]
    simp only [getByPos_mapPath, hg, Option.map_some, Option.bind_eq_bind, Option.bind_some]
    obtain rfl := Option.some.inj (ho.symm.trans hn0)
    rw [ho, Option.bind_some, Option.bind_some, hok, Option.bind_some, hop _ _ hm, hf, Option.bind_some, hds, Option.bind_some, hk',
      Option.bind_some, hm']
    refine ⟨_, rfl, rfl, ?_⟩
    simp

/-! ## C127 -/

/-- `path_prefix` of a sequential script reader: with the prefix `p` on one disk the script reads exactly as without
prefix on a disk where the files that the script names are the ones of the first disk under `p ++ name` - for any part,
separator, and number of records. -/
theorem C127_prefix_sequential (e : Env) (d d' : Disk) (p : Str) (sep : Char) (i P : Nat) (s : Str) (sp : RSpecifier)
    (hs : rCreate d.firstLine s = some sp) (hs' : rCreate d'.firstLine s = some sp) (hty : sp.specType = .script)
    (hd : d' sp.archive = d sp.archive)
    (hloc : ∀ t x, d.txt sp.archive = some t → Scp.load sep ':' t = some x → ∀ f ∈ x.path, d' f = d (p ++ f)) (k : Nat) :
    ((openSeqStr d ⟨some p, sep, i, P⟩ s).bind (fun r => r.read e d k)).map (·.1) =
      ((openSeqStr d' ⟨none, sep, i, P⟩ s).bind (fun r => r.read e d' k)).map (·.1) := by
  unfold openSeqStr
  rw [hs, hs', Option.bind_some, Option.bind_some]
  obtain ⟨ty, a, aty, f1, f2, f3, f4, f5⟩ := sp
  simp only at hty hd hloc
  subst hty
  have ht := txt_congr hd
  cases aty with
  | ark =>
    simp only [openSeq, ht]
    rcases hx : (d.txt a).bind (Scp.load sep ':') with _ | x
    · rfl
    · obtain ⟨t, h1, h2⟩ := Option.bind_eq_some_iff.1 hx
      have hl := hloc t x h1 h2
      simp only [Option.bind_some]
      unfold openArkScp partScp
      dsimp only
      rcases hy : (if 1 < P then x.split i P false else some x) with _ | y
      · rfl
      · have hl' : ∀ f ∈ y.path, d' f = d (p ++ f) := fun f hf => hl f (split_path hy f hf)
        have := ark_prefix e hl' k
        simp only [Option.map_some, Option.bind_some, prefixed, Rd.read, Option.map_map]
        exact this.symm
  | h5 =>
    simp only [openSeq, ht]
    rcases hx : (d.txt a).bind (Scp.load sep ':') with _ | x
    · rfl
    · obtain ⟨t, h1, h2⟩ := Option.bind_eq_some_iff.1 hx
      have hl := hloc t x h1 h2
      simp only [Option.bind_some]
      have hop : ∀ pref, H5.SeqScript.open x i P false pref =
          (if 1 < P then x.split i P false else some x).map (fun y => ⟨prefixed pref y, 0, none⟩) := by
        intro pref
        unfold H5.SeqScript.open prefixed
        split <;> (dsimp only; split <;> first | rfl | (cases x.split i P false <;> rfl))
      rw [hop, hop]
      rcases hy : (if 1 < P then x.split i P false else some x) with _ | y
      · rfl
      · have hl' : ∀ f ∈ y.path, d' f = d (p ++ f) := fun f hf => hl f (split_path hy f hf)
        have := h5_prefix e hl' k
        simp only [Option.map_some, Option.bind_some, prefixed, Rd.read, Option.map_map]
        exact this.symm

/-! ### random access -/

/-- one key, without state. -/
def randH5One (D : Decoder) (fs : H5.Files) (x : Scp.Scp Str Str) (permissive : Bool) (key : Str) : Option Nd :=
  if (x.contains key).1 then
    (x.getIndex key).1.bind (fun j => (x.getByPos j).bind (fun en => (combineRanges en.2.2.2 0 0).bind (fun ok =>
      (fs en.2.1).bind (fun f =>
        if f.has key then (f.get key).bind (fun ds => (natOf ok.2).bind (fun k => H5.readSet D id ok.1 k ds))
        else if permissive then some H5.emptyNd else none))))
  else if permissive then some H5.emptyNd else none

theorem npInverse_none {α : Type} [LinearOrder α] {l : List α} {i : Nat} (h : l[i]? = none) : (npInverse l)[i]? = none := by
  unfold npInverse
  rw [List.getElem?_map, h]; rfl

theorem rand_open_none {fs : H5.Files} {r : H5.RandScript} (h : H5.RandOk fs r) {i : Nat} {p : Str} (hp : r.scp.path[i]? = some p)
    (hf : fs p = none) : r.openArchive fs i = none := by
  obtain ⟨a, ha, hu⟩ := H5.npInverse_get hp
  rw [← h.idx] at ha
  rw [← h.arch] at hu
  unfold H5.RandScript.openArchive
  simp only [ha, Option.bind_eq_bind, Option.bind_some]
  rcases hx : r.handles[a]? with _ | x
  · rfl
  · simp only [Option.bind_some]
    cases x with
    | some g =>
      obtain ⟨p', h1, h2⟩ := h.ok a g hx
      rw [hu] at h1
      obtain rfl := Option.some.inj h1
      rw [hf] at h2; simp at h2
    | none => simp only [hu, hf, Option.bind_some, Option.bind_none]

theorem rand_one {D : Decoder} {fs : H5.Files} {r : H5.RandScript} (h : H5.RandOk fs r) (permissive : Bool) (i : Nat) (key : Str) :
    (∃ r', H5.RandOk fs r' ∧ r'.scp = r.scp ∧
      r.readOne D id fs permissive (.int 0) (.int 0) i key = (randH5One D fs r.scp permissive key).map (fun m => (m, r'))) := by
  unfold H5.RandScript.readOne randH5One
  by_cases hc : (r.scp.contains key).1 = true
  · rw [if_pos hc]
    simp only [if_pos hc, Option.bind_eq_bind]
    rcases (r.scp.getIndex key).1 with _ | j
    · exact ⟨r, h, rfl, rfl⟩
    · simp only [Option.bind_some, H5.Arg.at]
      rcases hg : r.scp.getByPos j with _ | en
      · exact ⟨r, h, rfl, rfl⟩
      · have hp := getByPos_path hg
        simp only [Option.bind_some]
        rcases combineRanges en.2.2.2 0 0 with _ | ok
        · exact ⟨r, h, rfl, rfl⟩
        · simp only [Option.bind_some]
          rcases hf : fs en.2.1 with _ | f
          · rw [rand_open_none h hp hf]
            exact ⟨r, h, rfl, rfl⟩
          · obtain ⟨r', ho, hok, hsc⟩ := h.openArchive hp hf
            refine ⟨r', hok, hsc, ?_⟩
            rw [ho]
            simp only [Option.bind_some]
            by_cases hh : f.has key = true
            · simp only [if_pos hh]
              rcases f.get key with _ | ds
              · rfl
              · simp only [Option.bind_some]
                rcases natOf ok.2 with _ | k
                · rfl
                · simp only [Option.bind_some]
                  rcases H5.readSet D id ok.1 k ds with _ | m <;> rfl
            · simp only [if_neg hh]
              cases permissive <;> rfl
  · rw [if_neg hc]
    simp only [if_neg hc]
    refine ⟨r, h, rfl, ?_⟩
    cases permissive <;> rfl

theorem rand_all {D : Decoder} {fs : H5.Files} (permissive : Bool) (keys : List Str) (i : Nat) (r : H5.RandScript) (h : H5.RandOk fs r) :
    (H5.RandScript.loop D id fs permissive (.int 0) (.int 0) i keys r).map (·.1) =
      keys.mapM (randH5One D fs r.scp permissive) := by
  induction keys generalizing i r with
  | nil => rfl
  | cons k keys ih =>
    obtain ⟨r', h1, h2, h3⟩ := rand_one (D := D) h permissive i k
    unfold H5.RandScript.loop
    rw [h3, List.mapM_cons]
    rcases randH5One D fs r.scp permissive k with _ | m
    · rfl
    · simp only [Option.map_some, Option.bind_eq_bind, Option.bind_some]
      have := ih (i + 1) r' h1
      rw [h2] at this
      rw [← this]
      rcases H5.RandScript.loop D id fs permissive (.int 0) (.int 0) (i + 1) keys r' with _ | q <;> rfl

theorem rand_open_ok (fs : H5.Files) (x : Scp.Scp Str Str) (pref : Option Str) :
    H5.RandOk fs (H5.RandScript.open x pref) ∧ (H5.RandScript.open x pref).scp = prefixed pref x := by
  have : H5.RandScript.open x pref = H5.RandScript.open (prefixed pref x) none := by
    cases pref <;> rfl
  rw [this]
  exact ⟨H5.C98_rand_open fs _, rfl⟩

theorem rand_read (e : Env) (d : Disk) (pref : Option Str) (x : Scp.Scp Str Str) (perm : Bool) (keys : List Str) :
    (RandRd.h5Scp (H5.RandScript.open x pref) perm).read e d keys =
      keys.mapM (randH5One e.D d.hdf (prefixed pref x) perm) := by
  obtain ⟨h1, h2⟩ := rand_open_ok d.hdf x pref
  have := rand_all (D := e.D) perm keys 0 _ h1
  rw [h2] at this
  rw [← this]
  simp only [RandRd.read, H5.RandScript.read, H5.Arg.fits, Bool.and_self, if_true]

theorem mapM_congr_all {α β : Type} {l : List α} {f g : α → Option β} (h : ∀ a, f a = g a) : l.mapM f = l.mapM g := by
  rw [show f = g from funext h]

/-- `path_prefix` in random access, likewise. -/
theorem C127_prefix_random (e : Env) (d d' : Disk) (p : Str) (sep : Char) (s : Str) (sp : RSpecifier)
    (hs : rCreate d.firstLine s = some sp) (hs' : rCreate d'.firstLine s = some sp) (hty : sp.specType = .script)
    (hd : d' sp.archive = d sp.archive)
    (hloc : ∀ t x, d.txt sp.archive = some t → Scp.load sep ':' t = some x → ∀ f ∈ x.path, d' f = d (p ++ f)) (keys : List Str) :
    ((rCreate d.firstLine s).bind (openRand d (some p) sep)).bind (fun r => r.read e d keys) =
      ((rCreate d'.firstLine s).bind (openRand d' none sep)).bind (fun r => r.read e d' keys) := by
  rw [hs, hs', Option.bind_some, Option.bind_some]
  obtain ⟨ty, a, aty, f1, f2, f3, f4, f5⟩ := sp
  simp only at hty hd hloc
  subst hty
  have ht := txt_congr hd
  cases aty with
  | ark =>
    simp only [openRand, ht]
    rcases hx : (d.txt a).bind (Scp.load sep ':') with _ | x
    · rfl
    · obtain ⟨t, h1, h2⟩ := Option.bind_eq_some_iff.1 hx
      have hl := hloc t x h1 h2
      simp only [Option.map_some, Option.bind_some, RandRd.read, Kaldi.randomRead, prefixed]
      refine mapM_congr_all (fun key => ?_)
      unfold Kaldi.randomReadOne
      have hc : ((x.mapPath (p ++ ·)).contains key).1 = (x.contains key).1 := by
        unfold Scp.Scp.contains Scp.Scp.mapPath; dsimp only; split <;> rfl
      have hi : ((x.mapPath (p ++ ·)).getIndex key).1 = (x.getIndex key).1 := by
        unfold Scp.Scp.getIndex Scp.Scp.mapPath; dsimp only; split <;> rfl
      rw [hc, hi]
      split
      · simp only [Option.bind_eq_bind]
        rcases (x.getIndex key).1 with _ | j
        · rfl
        · simp only [Option.bind_some, getByPos_mapPath]
          rcases hg : x.getByPos j with _ | en
          · rfl
          · have hb := bin_congr (hl en.2.1 (List.mem_of_getElem? (getByPos_path hg)))
            simp only [Option.map_some, Option.bind_some]
            rw [hb]
      · rfl
  | h5 =>
    simp only [openRand, ht]
    rcases hx : (d.txt a).bind (Scp.load sep ':') with _ | x
    · rfl
    · obtain ⟨t, h1, h2⟩ := Option.bind_eq_some_iff.1 hx
      have hl := hloc t x h1 h2
      simp only [Option.map_some, Option.bind_some, rand_read, prefixed]
      refine mapM_congr_all (fun key => ?_)
      unfold randH5One
      have hc : ((x.mapPath (p ++ ·)).contains key).1 = (x.contains key).1 := by
        unfold Scp.Scp.contains Scp.Scp.mapPath; dsimp only; split <;> rfl
      have hi : ((x.mapPath (p ++ ·)).getIndex key).1 = (x.getIndex key).1 := by
        unfold Scp.Scp.getIndex Scp.Scp.mapPath; dsimp only; split <;> rfl
      rw [hc, hi]
      split
      · rcases (x.getIndex key).1 with _ | j
        · rfl
        · simp only [Option.bind_some, getByPos_mapPath]
          rcases hg : x.getByPos j with _ | en
          · rfl
          · have hb := hdf_congr (hl en.2.1 (List.mem_of_getElem? (getByPos_path hg)))
            simp only [Option.map_some, Option.bind_some]
            rw [hb]
      · rfl

/-! ## C126: missing keys -/

/-- the archive or the script of the specifier does not have the key. -/
def Lacks (d : Disk) (sep : Char) (sp : RSpecifier) (k : Str) : Prop :=
  (sp.specType = .archive → ∀ f, d.hdf sp.archive = some f → f.has k = false) ∧
  (sp.specType = .script → ∀ t x, d.txt sp.archive = some t → Scp.load sep ':' t = some x → k ∉ x.key)

theorem load_cache {sep off : Char} {t : Str} {x : Scp.Scp Str Str} (h : Scp.load sep off t = some x) : x.cache = none := by
  unfold Scp.load at h
  simp only [Option.bind_eq_bind, Option.bind_eq_some_iff] at h
  obtain ⟨_, _, _, _, h⟩ := h
  obtain ⟨_, _, _, rfl⟩ := Scp.create_iff.1 h
  rfl

theorem prefixed_lacks {x : Scp.Scp Str Str} {k : Str} (hca : x.cache = none) (hk : k ∉ x.key) (pref : Option Str) :
    ((prefixed pref x).contains k).1 = false := by
  have : ((prefixed pref x).contains k).1 = (dictGet (enumDict x.key) k).isSome := by
    unfold Scp.Scp.contains
    cases pref with
    | none => simp only [prefixed]; rw [hca]
    | some p => simp only [prefixed, Scp.Scp.mapPath]; rw [hca]
  rw [this, enumDict_get_not_mem hk]
  rfl

/-- A key that is not there: a permissive reader (option `p` of the specifier) returns an empty array for it, any
other reader raises as soon as one key of the list is missing. -/
theorem C126_missing_key (e : Env) (d : Disk) (pref : Option Str) (sep : Char) (s : Str) (sp : RSpecifier) (rd : RandRd)
    (hs : rCreate d.firstLine s = some sp) (ho : openRand d pref sep sp = some rd) (k : Str) (hk : Lacks d sep sp k) :
    (sp.permissive = true → rd.read e d [k] = some [.vec .f32 []]) ∧
    (sp.permissive = false → ∀ keys, k ∈ keys → rd.read e d keys = none) := by
  obtain ⟨ty, a, aty, f1, f2, perm, f4, f5⟩ := sp
  have fail : ∀ {f : Str → Option Nd} {keys : List Str}, f k = none → k ∈ keys → keys.mapM f = none := by
    intro f keys h1 h2
    exact mapM_eq_none_iff.2 ⟨k, h2, h1⟩
  cases ty with
  | archive =>
    cases aty with
    | ark => simp [openRand] at ho
    | h5 =>
      simp only [openRand] at ho
      obtain ⟨f, hf, rfl⟩ := Option.map_eq_some_iff.1 ho
      have hh := hk.1 rfl f hf
      refine ⟨?_, ?_⟩
      · rintro rfl
        simp only [RandRd.read, H5.randFileRead, H5.Arg.fits, Bool.and_self, if_true]
        simp [H5.randFileOne, hh, H5.emptyNd]
      · rintro rfl keys hm
        simp only [RandRd.read, H5.randFileRead, H5.Arg.fits, Bool.and_self, if_true]
        rw [mapM_eq_none_iff]
        obtain ⟨i, hi, hki⟩ := List.mem_iff_getElem.1 hm
        refine ⟨(k, i), ?_, ?_⟩
        · rw [List.mk_mem_zipIdx_iff_getElem?, List.getElem?_eq_getElem hi, hki]
        · simp [H5.randFileOne, hh]
  | script =>
    cases aty with
    | ark =>
      simp only [openRand] at ho
      obtain ⟨x, hx, rfl⟩ := Option.map_eq_some_iff.1 ho
      obtain ⟨t, h1, h2⟩ := Option.bind_eq_some_iff.1 hx
      have hl := prefixed_lacks (load_cache h2) (hk.2 rfl t x h1 h2) pref
      refine ⟨?_, ?_⟩
      · rintro rfl
        simp [RandRd.read, Kaldi.randomRead, Kaldi.randomReadOne, hl]
      · rintro rfl keys hm
        simp only [RandRd.read, Kaldi.randomRead]
        exact fail (by simp [Kaldi.randomReadOne, hl]) hm
    | h5 =>
      simp only [openRand] at ho
      obtain ⟨x, hx, rfl⟩ := Option.map_eq_some_iff.1 ho
      obtain ⟨t, h1, h2⟩ := Option.bind_eq_some_iff.1 hx
      have hl := prefixed_lacks (load_cache h2) (hk.2 rfl t x h1 h2) pref
      rw [rand_read]
      refine ⟨?_, ?_⟩
      · rintro rfl
        simp [randH5One, hl, H5.emptyNd]
      · rintro rfl keys hm
        rw [rand_read]
        exact fail (by simp [randH5One, hl]) hm

end Hyp.Copy
