import Verif.Keras.SaveLoad
import Verif.Keras.SeqEmbedProps

/-!
Properties C172: embedding models written to files and read again.
-/

namespace Hyp.Keras.SaveLoad
open Hyp.Text Hyp Hyp.Cli

variable {N : Type}

theorem dictGet_mapKey {β γ : Type} (l : List (String × β)) (g : String × β → String × γ) (hg : ∀ p, (g p).1 = p.1) (k : String) :
    dictGet (l.map g) k = (dictGet l k).map (fun v => (g (k, v)).2) := by
  induction l with
  | nil => rfl
  | cons p l ih =>
    obtain ⟨a, v⟩ := p
    simp only [List.map_cons]
    rw [show g (a, v) = ((g (a, v)).1, (g (a, v)).2) from rfl]
    simp only [dictGet, hg]
    by_cases h : a = k
    · subst h; simp
    · simp [h, ih]

theorem resolve_fst (args : List (String × Val)) (p : String × Val) : (resolve args p).1 = p.1 := by
  unfold resolve; split_ifs <;> rfl

/-- value of an argument of a constructor -/
def argVal (c : Cls) (kw : List (String × Val)) (k : String) : Val :=
  match dictGet (params c) k with
  | some v => (dictGet kw k).getD v
  | none => .null

theorem attr_mk (c : Cls) (a : N) (b l : Option N) (kw : List (String × Val)) (down : Option Nat) (k : String) (hk : (dictGet (params c) k).isSome) :
    (mk c a b l kw down).attr k =
      if k = "begin_context" ∧ argVal c kw k = .null then argVal c kw "left_context"
      else if k = "end_context" ∧ argVal c kw k = .null then argVal c kw "right_context"
      else argVal c kw k := by
  obtain ⟨v, hv⟩ := Option.isSome_iff_exists.1 hk
  have hargs : ∀ k, dictGet ((params c).map (argOf kw)) k = (dictGet (params c) k).map (fun v => (dictGet kw k).getD v) := fun k =>
    dictGet_mapKey (params c) (argOf kw) (fun _ => rfl) k
  have hval : ∀ k, (dictGet ((params c).map (argOf kw)) k).getD .null = argVal c kw k := by
    intro k
    rw [hargs]
    unfold argVal
    cases dictGet (params c) k <;> rfl
  unfold Obj.attr mk
  dsimp only
  rw [dictGet_mapKey _ _ (resolve_fst _), hargs, hv]
  have h0 : argVal c kw k = (dictGet kw k).getD v := by unfold argVal; rw [hv]
  simp only [Option.map_some, Option.getD_some, resolve, ← h0]
  split_ifs
  · exact hval _
  · exact hval _
  · rfl

theorem dictGet_kwOf (cfg : List (String × Val)) (keys : List String) (k : String) :
    dictGet (kwOf cfg keys) k = if k ∈ keys then dictGet cfg k else none := by
  unfold kwOf
  induction keys with
  | nil => rfl
  | cons a keys ih =>
    rw [List.filterMap_cons]
    cases ha : dictGet cfg a with
    | none =>
      simp only [Option.map_none, ih, List.mem_cons]
      by_cases h : k = a
      · subst h; simp [ha]
      · simp [h]
    | some v =>
      simp only [Option.map_some, List.mem_cons, dictGet]
      by_cases h : a = k
      · subst h; simp [ha]
      · rw [if_neg h, ih]
        have : ¬ k = a := fun e => h e.symm
        simp [this]

theorem dictGet_keys (f : String → Val) (keys : List String) (k : String) :
    dictGet (keys.map (fun k => (k, f k))) k = if k ∈ keys then some (f k) else none := by
  induction keys with
  | nil => rfl
  | cons a keys ih =>
    simp only [List.map_cons, dictGet, List.mem_cons]
    by_cases h : a = k
    · subst h; simp
    · have : ¬ k = a := fun e => h e.symm
      rw [if_neg h, ih]; simp [this]

theorem dictGet_config (o : Obj N) (k : String) : dictGet (getConfig o) k =
    if k = "class_name" then some (.str (className o.cls)) else if k = "name" then some (o.attr "name")
    else if k ∈ configKeys o.cls then some (o.attr k) else none := by
  unfold getConfig
  simp only [List.cons_append, List.nil_append, dictGet, dictGet_keys]
  simp only [eq_comm (b := k)]

theorem dictGet_append (l m : List (String × Val)) (k : String) : dictGet (l ++ m) k = (dictGet l k).orElse (fun _ => dictGet m k) := by
  induction l with
  | nil => rfl
  | cons p l ih =>
    obtain ⟨a, v⟩ := p
    simp only [List.cons_append, dictGet]
    split_ifs
    · rfl
    · exact ih

/-- what `load` computes from the files, given that all can be read -/
theorem load_eq (c : Cls) (d : Disk N) (p : Str) (cfg pos : List (String × Val)) (a b : N) (l : Option N)
    (h1 : readCfg d (p ++ ".json".toList) = some cfg) (h2 : readNet d (p ++ (suffixes c).1) = some a)
    (h3 : readNet d (p ++ (suffixes c).2) = some b) (h4 : loadLde c d p = some l) (h5 : positional c cfg = some pos) :
    load c d p = some (mk c a (some b) l (pos ++ kwOf cfg (loadKeys c)) none) := by
  unfold load
  simp only [h1, h2, h3, h4, h5, Option.bind_eq_bind, Option.bind_some]

theorem app_ne {p s t : Str} (h : s ≠ t) : p ++ s ≠ p ++ t := fun e => h (List.append_cancel_left e)

theorem sfx_ne (c : Cls) : ".json".toList ≠ (suffixes c).1 ∧ ".json".toList ≠ (suffixes c).2 ∧ (suffixes c).1 ≠ (suffixes c).2 ∧
    ".lde.h5".toList ≠ ".json".toList ∧ ".lde.h5".toList ≠ (suffixes c).1 ∧ ".lde.h5".toList ≠ (suffixes c).2 := by
  cases c <;> decide +kernel

/-- the files after `save` of an object with both networks -/
theorem save_files (d : Disk N) (p : Str) (o : Obj N) (b : N) (hb : o.b = some b)
    (hl : o.cls = .seqEmbedLDE → o.attr "pooling" = .str "lde" → o.l.isSome) :
    (save d p o).2 = true ∧ ∀ q, (save d p o).1 q =
      if q = p ++ ".json".toList then some (.json (getConfig o)) else if q = p ++ (suffixes o.cls).1 then some (.net o.a)
      else if q = p ++ (suffixes o.cls).2 then some (.net b)
      else if o.cls = .seqEmbedLDE ∧ o.attr "pooling" = .str "lde" ∧ q = p ++ ".lde.h5".toList then o.l.map .net else d q := by
  obtain ⟨n1, n2, n3, n4, n5, n6⟩ := sfx_ne o.cls
  have hs : save d p o = saveLde (put (put (put d (p ++ ".json".toList) (.json (getConfig o))) (p ++ (suffixes o.cls).1) (.net o.a))
      (p ++ (suffixes o.cls).2) (.net b)) p o := by
    unfold save; rw [hb]
  rw [hs]
  unfold saveLde
  by_cases hc : o.cls = .seqEmbedLDE ∧ o.attr "pooling" = .str "lde"
  · obtain ⟨n, hn⟩ := Option.isSome_iff_exists.1 (hl hc.1 hc.2)
    rw [if_pos hc, hn]
    refine ⟨rfl, fun q => ?_⟩
    unfold put
    dsimp only
    by_cases h4 : q = p ++ ".lde.h5".toList
    · subst h4
      rw [if_pos rfl, if_neg (app_ne n4), if_neg (app_ne n5), if_neg (app_ne n6), if_pos ⟨hc.1, hc.2, rfl⟩]
      rfl
    · rw [if_neg h4, if_neg (c := o.cls = Cls.seqEmbedLDE ∧ _) (fun h => h4 h.2.2)]
      by_cases h3 : q = p ++ (suffixes o.cls).2
      · subst h3
        rw [if_pos rfl, if_neg (app_ne n2.symm), if_neg (app_ne n3.symm), if_pos rfl]
      · rw [if_neg h3, if_neg h3]
        by_cases h2 : q = p ++ (suffixes o.cls).1
        · subst h2
          rw [if_pos rfl, if_neg (app_ne n1.symm), if_pos rfl]
        · rw [if_neg h2, if_neg h2]
  · rw [if_neg hc]
    refine ⟨rfl, fun q => ?_⟩
    unfold put
    dsimp only
    rw [if_neg (c := o.cls = Cls.seqEmbedLDE ∧ _) (fun h => hc ⟨h.1, h.2.1⟩)]
    by_cases h3 : q = p ++ (suffixes o.cls).2
    · subst h3
      rw [if_pos rfl, if_neg (app_ne n2.symm), if_neg (app_ne n3.symm), if_pos rfl]
    · rw [if_neg h3, if_neg h3]
      by_cases h2 : q = p ++ (suffixes o.cls).1
      · subst h2
        rw [if_pos rfl, if_neg (app_ne n1.symm), if_pos rfl]
      · rw [if_neg h2, if_neg h2]

/-- what survives: attributes that are saved and read again -/
def kept (c : Cls) (k : String) : Bool :=
  (dictGet (params c) k).isSome && (((loadKeys c).contains k && (decide (k = "name") || (configKeys c).contains k)) ||
    (decide (c = .seqQEmbed ∨ c = .seqMetaEmbed) && decide (k = "num_classes")))

theorem kept_left (c : Cls) (h : (dictGet (params c) "begin_context").isSome) : kept c "left_context" = true := by
  revert h; cases c <;> decide +kernel

theorem kept_right (c : Cls) (h : (dictGet (params c) "end_context").isSome) : kept c "right_context" = true := by
  revert h; cases c <;> decide +kernel

theorem load_no_num (c : Cls) : "num_classes" ∉ loadKeys c := by cases c <;> decide +kernel

theorem cfg_no_class (c : Cls) : "class_name" ∉ loadKeys c := by cases c <;> decide +kernel

theorem positional_config (c : Cls) (o : Obj N) (hc : o.cls = c) : positional c (getConfig o) =
    some (if c = .seqQEmbed ∨ c = .seqMetaEmbed then [("num_classes", o.attr "num_classes")] else []) := by
  subst hc
  have h : dictGet (getConfig o) "num_classes" = if "num_classes" ∈ configKeys o.cls then some (o.attr "num_classes") else none := by
    rw [dictGet_config, if_neg (by decide), if_neg (by decide)]
  unfold positional
  split
  · next e => rw [e]; rfl
  · next e => rw [e]; rfl
  · next e => rw [h, e]; rfl
  · next e => rw [h, e]; rfl

theorem reload_attr (c : Cls) (a a' : N) (b b' l l' : Option N) (kw : List (String × Val)) (down : Option Nat) (k : String) (hk : kept c k = true) :
    (mk c a' b' l' ((if c = .seqQEmbed ∨ c = .seqMetaEmbed then [("num_classes", (mk c a b l kw down).attr "num_classes")] else []) ++
      kwOf (getConfig (mk c a b l kw down)) (loadKeys c)) none).attr k = (mk c a b l kw down).attr k := by
  have hcls : (mk c a b l kw down).cls = c := rfl
  generalize ho : mk c a b l kw down = o at hcls ⊢
  generalize hkw : ((if c = .seqQEmbed ∨ c = .seqMetaEmbed then [("num_classes", o.attr "num_classes")] else []) ++ kwOf (getConfig o) (loadKeys c)) = kw'
  have hget : ∀ k, kept c k = true → argVal c kw' k = o.attr k ∧ (dictGet (params c) k).isSome := by
    intro k hk
    unfold kept at hk
    rw [Bool.and_eq_true, Bool.or_eq_true, Bool.and_eq_true, Bool.and_eq_true, Bool.or_eq_true, decide_eq_true_iff, decide_eq_true_iff,
      decide_eq_true_iff, List.contains_iff_mem, List.contains_iff_mem] at hk
    obtain ⟨hp, hk⟩ := hk
    refine ⟨?_, hp⟩
    obtain ⟨v, hv⟩ := Option.isSome_iff_exists.1 hp
    have : dictGet kw' k = some (o.attr k) := by
      rw [← hkw, dictGet_append, dictGet_kwOf, dictGet_config, hcls]
      rcases hk with ⟨h1, h2⟩ | ⟨h1, rfl⟩
      · have h3 : k ≠ "class_name" := fun e => cfg_no_class c (e ▸ h1)
        have h4 : ¬ "num_classes" = k := fun e => load_no_num c (e ▸ h1)
        rw [if_pos h1, if_neg h3]
        have h5 : dictGet (if c = .seqQEmbed ∨ c = .seqMetaEmbed then [("num_classes", o.attr "num_classes")] else []) k = none := by
          split_ifs
          · unfold dictGet; rw [if_neg h4]; rfl
          · rfl
        rw [h5]
        by_cases h6 : k = "name"
        · subst h6; rw [if_pos rfl]; rfl
        · rw [if_neg h6, if_pos (h2.resolve_left h6)]; rfl
      · rw [if_pos h1]; rfl
    unfold argVal
    rw [hv, this]; rfl
  obtain ⟨hA, hP⟩ := hget k hk
  rw [attr_mk _ _ _ _ _ _ _ hP, hA]
  by_cases h1 : k = "begin_context" ∧ o.attr k = .null
  · rw [if_pos h1, (hget _ (kept_left c (h1.1 ▸ hP))).1, h1.2]
    obtain ⟨rfl, h2⟩ := h1
    have hL := (hget _ (kept_left c hP)).2
    rw [← ho, attr_mk _ _ _ _ _ _ _ hP] at h2
    rw [← ho, attr_mk _ _ _ _ _ _ _ hL, if_neg (fun h => absurd h.1 (by decide)), if_neg (fun h => absurd h.1 (by decide))]
    by_cases h3 : argVal c kw "begin_context" = .null
    · rw [if_pos ⟨rfl, h3⟩] at h2; exact h2
    · rw [if_neg (fun h => h3 h.2), if_neg (fun h => absurd h.1 (by decide))] at h2
      exact absurd h2 h3
  · rw [if_neg h1]
    by_cases h1' : k = "end_context" ∧ o.attr k = .null
    · rw [if_pos h1', (hget _ (kept_right c (h1'.1 ▸ hP))).1, h1'.2]
      obtain ⟨rfl, h2⟩ := h1'
      have hL := (hget _ (kept_right c hP)).2
      rw [← ho, attr_mk _ _ _ _ _ _ _ hP, if_neg (fun h => absurd h.1 (by decide))] at h2
      rw [← ho, attr_mk _ _ _ _ _ _ _ hL, if_neg (fun h => absurd h.1 (by decide)), if_neg (fun h => absurd h.1 (by decide))]
      by_cases h3 : argVal c kw "end_context" = .null
      · rw [if_pos ⟨rfl, h3⟩] at h2; exact h2
      · rw [if_neg (fun h => h3 h.2)] at h2
        exact absurd h2 h3
    · rw [if_neg h1']

/-- attributes that a user gives and expects back -/
def survives : Cls → List String
  | .seqEmbed => ["loss", "pooling", "left_context", "right_context", "begin_context", "end_context", "name"]
  | .seqEmbedLDE => ["loss", "pooling", "num_comp", "left_context", "right_context", "begin_context", "end_context", "name"]
  | .seqQEmbed => ["num_classes", "post_pdf", "pooling_input", "pooling_output", "left_context", "right_context", "begin_context",
      "end_context", "frame_corr_penalty", "min_var", "kl_weight", "name"]
  | .seqMetaEmbed => ["num_classes", "post_pdf", "pooling_input", "pooling_output", "min_var", "name"]

theorem survives_kept (c : Cls) : ∀ k ∈ survives c, kept c k = true := by
  cases c <;> decide +kernel

/-- reading the files that `save` wrote -/
theorem roundtrip_core (c : Cls) (d : Disk N) (p : Str) (a b : N) (l : Option N) (kw : List (String × Val)) (down : Option Nat)
    (hl : c = .seqEmbedLDE → (mk c a (some b) l kw down).attr "pooling" = .str "lde" → l.isSome)
    (hstale : c = .seqEmbedLDE → (mk c a (some b) l kw down).attr "pooling" ≠ .str "lde" →
      d (p ++ ".lde.h5".toList) = none ∨ ∃ n, d (p ++ ".lde.h5".toList) = some (.net n)) :
    ∃ l', load c (save d p (mk c a (some b) l kw down)).1 p = some (mk c a (some b) l'
      ((if c = .seqQEmbed ∨ c = .seqMetaEmbed then [("num_classes", (mk c a (some b) l kw down).attr "num_classes")] else []) ++
        kwOf (getConfig (mk c a (some b) l kw down)) (loadKeys c)) none) ∧
      (c = .seqEmbedLDE → (mk c a (some b) l kw down).attr "pooling" = .str "lde" → l' = l) ∧
      (c = .seqEmbedLDE → (mk c a (some b) l kw down).attr "pooling" ≠ .str "lde" → d (p ++ ".lde.h5".toList) = none → l' = none) ∧
      (c ≠ .seqEmbedLDE → l' = none) := by
  have hcls : (mk c a (some b) l kw down).cls = c := rfl
  have ha : (mk c a (some b) l kw down).a = a := rfl
  have hb : (mk c a (some b) l kw down).b = some b := rfl
  have hll : (mk c a (some b) l kw down).l = l := rfl
  generalize mk c a (some b) l kw down = o at *
  obtain ⟨-, hf⟩ := save_files d p o b hb (fun h1 h2 => by rw [hll]; exact hl (hcls ▸ h1) h2)
  obtain ⟨n1, n2, n3, n4, n5, n6⟩ := sfx_ne c
  rw [hcls, ha, hll] at hf
  have h1 : readCfg (save d p o).1 (p ++ ".json".toList) = some (getConfig o) := by
    unfold readCfg; rw [hf, if_pos rfl]
  have h2 : readNet (save d p o).1 (p ++ (suffixes c).1) = some a := by
    unfold readNet; rw [hf, if_neg (app_ne n1.symm), if_pos rfl]
  have h3 : readNet (save d p o).1 (p ++ (suffixes c).2) = some b := by
    unfold readNet; rw [hf, if_neg (app_ne n2.symm), if_neg (app_ne n3.symm), if_pos rfl]
  have h5 : (save d p o).1 (p ++ ".lde.h5".toList) =
      if c = .seqEmbedLDE ∧ o.attr "pooling" = .str "lde" then l.map .net else d (p ++ ".lde.h5".toList) := by
    rw [hf, if_neg (app_ne n4), if_neg (app_ne n5), if_neg (app_ne n6)]
    simp only [and_true]
  have key : ∃ l', loadLde c (save d p o).1 p = some l' ∧ (c = .seqEmbedLDE → o.attr "pooling" = .str "lde" → l' = l) ∧
      (c = .seqEmbedLDE → o.attr "pooling" ≠ .str "lde" → d (p ++ ".lde.h5".toList) = none → l' = none) ∧ (c ≠ .seqEmbedLDE → l' = none) := by
    by_cases hc : c = .seqEmbedLDE
    · by_cases hp : o.attr "pooling" = .str "lde"
      · obtain ⟨n, hn⟩ := Option.isSome_iff_exists.1 (hl hc hp)
        refine ⟨some n, ?_, fun _ _ => hn.symm, fun _ h => absurd hp h, fun h => absurd hc h⟩
        have h6 : (save d p o).1 (p ++ ".lde.h5".toList) = some (.net n) := by rw [h5, if_pos ⟨hc, hp⟩, hn]; rfl
        unfold loadLde readNet
        rw [if_pos hc, h6]; rfl
      · rcases hstale hc hp with h | ⟨n, h⟩
        · refine ⟨none, ?_, fun _ h => absurd h hp, fun _ _ _ => rfl, fun h => absurd hc h⟩
          have h6 : (save d p o).1 (p ++ ".lde.h5".toList) = none := by rw [h5, if_neg (fun h => hp h.2), h]
          unfold loadLde
          rw [if_pos hc, h6]; rfl
        · refine ⟨some n, ?_, fun _ h => absurd h hp, fun _ _ h' => absurd (h'.symm.trans h) (by simp), fun h => absurd hc h⟩
          have h6 : (save d p o).1 (p ++ ".lde.h5".toList) = some (.net n) := by rw [h5, if_neg (fun h => hp h.2), h]
          unfold loadLde readNet
          rw [if_pos hc, h6]; rfl
    · refine ⟨none, ?_, fun h => absurd h hc, fun h => absurd h hc, fun _ => rfl⟩
      unfold loadLde
      rw [if_neg hc]
  obtain ⟨l', h4, k1, k2, k3⟩ := key
  exact ⟨l', load_eq c _ p _ _ a b l' h1 h2 h3 h4 (positional_config c o hcls), k1, k2, k3⟩

/-- **C172.** An embedding model of any class, constructed with any arguments and with both networks, is saved without an error
and read back with the same networks and the same value of every argument of `survives` (the dictionary encoding needs its network, and
an older file of that name, if there is one, must hold a network). The downsampling given to the constructor and the length given to
`build` are not saved. -/
theorem C172_roundtrip (c : Cls) (d : Disk N) (p : Str) (a b : N) (l : Option N) (kw : List (String × Val)) (down : Option Nat)
    (hl : c = .seqEmbedLDE → (mk c a (some b) l kw down).attr "pooling" = .str "lde" → l.isSome)
    (hstale : c = .seqEmbedLDE → (mk c a (some b) l kw down).attr "pooling" ≠ .str "lde" →
      d (p ++ ".lde.h5".toList) = none ∨ ∃ n, d (p ++ ".lde.h5".toList) = some (.net n)) :
    (save d p (mk c a (some b) l kw down)).2 = true ∧
    ∃ o, load c (save d p (mk c a (some b) l kw down)).1 p = some o ∧ o.cls = c ∧ o.a = a ∧ o.b = some b ∧
      (∀ k ∈ survives c, o.attr k = (mk c a (some b) l kw down).attr k) ∧
      (c = .seqEmbedLDE → (mk c a (some b) l kw down).attr "pooling" = .str "lde" → o.l = l) ∧ o.down = none ∧ o.maxLen = none := by
  obtain ⟨l', h1, h2, -, -⟩ := roundtrip_core c d p a b l kw down hl hstale
  refine ⟨(save_files d p _ b rfl hl).1, _, h1, rfl, rfl, rfl, ?_, h2, rfl, rfl⟩
  intro k hk
  exact reload_attr c a a (some b) (some b) l l' kw down k (survives_kept c k hk)

/-- **C172 (by the class in the file).** `KerasModelLoader.load` reads the first three classes as `load` of their class, and raises
for `SeqMetaEmbed`. -/
theorem C172_kml (c : Cls) (d : Disk N) (p : Str) (a b : N) (l : Option N) (kw : List (String × Val)) (down : Option Nat)
    (hl : c = .seqEmbedLDE → (mk c a (some b) l kw down).attr "pooling" = .str "lde" → l.isSome) :
    kmlLoad (save d p (mk c a (some b) l kw down)).1 p =
      if c = .seqMetaEmbed then none else load c (save d p (mk c a (some b) l kw down)).1 p := by
  have h1 : readCfg (save d p (mk c a (some b) l kw down)).1 (p ++ ".json".toList) = some (getConfig (mk c a (some b) l kw down)) := by
    unfold readCfg; rw [(save_files d p _ b rfl hl).2, if_pos rfl]
  unfold kmlLoad
  simp only [h1, Option.bind_eq_bind, Option.bind_some, dictGet_config]
  cases c <;> rfl

/-- **C172 (values).** What an attribute is after construction: the argument or its default; the contexts at the ends are those between chunks when
they are not given. -/
theorem C172_arguments (a : N) (b l : Option N) (kw : List (String × Val)) (down : Option Nat) :
    (∀ c ∈ [Cls.seqEmbed, Cls.seqEmbedLDE], (mk c a b l kw down).attr "pooling" = (dictGet kw "pooling").getD (.str "mean+std") ∧
      (mk c a b l kw down).attr "loss" = (dictGet kw "loss").getD (.str "categorical_crossentropy")) ∧
    (∀ c ∈ [Cls.seqEmbed, Cls.seqEmbedLDE, Cls.seqQEmbed],
      (mk c a b l kw down).attr "left_context" = (dictGet kw "left_context").getD (.int 0) ∧
      (mk c a b l kw down).attr "right_context" = (dictGet kw "right_context").getD (.int 0) ∧
      (mk c a b l kw down).attr "begin_context" = (if (dictGet kw "begin_context").getD .null = .null
        then (dictGet kw "left_context").getD (.int 0) else (dictGet kw "begin_context").getD .null) ∧
      (mk c a b l kw down).attr "end_context" = (if (dictGet kw "end_context").getD .null = .null
        then (dictGet kw "right_context").getD (.int 0) else (dictGet kw "end_context").getD .null)) ∧
    (mk .seqEmbedLDE a b l kw down).attr "num_comp" = (dictGet kw "num_comp").getD (.int 64) ∧
    (mk .seqEmbedLDE a b l kw down).attr "lde_order" = (dictGet kw "lde_order").getD (.int 2) ∧
    (∀ c ∈ [Cls.seqQEmbed, Cls.seqMetaEmbed], (mk c a b l kw down).attr "num_classes" = (dictGet kw "num_classes").getD .null ∧
      (mk c a b l kw down).attr "post_pdf" = (dictGet kw "post_pdf").getD (.str "diag_normal") ∧
      (mk c a b l kw down).attr "pooling_input" = (dictGet kw "pooling_input").getD (.str "mean+logvar") ∧
      (mk c a b l kw down).attr "pooling_output" = (dictGet kw "pooling_output").getD (.str "nat+prec") ∧
      (mk c a b l kw down).attr "min_var" = (dictGet kw "min_var").getD (.dec 1 1)) ∧
    (mk .seqQEmbed a b l kw down).attr "frame_corr_penalty" = (dictGet kw "frame_corr_penalty").getD (.int 1) ∧
    (mk .seqQEmbed a b l kw down).attr "kl_weight" = (dictGet kw "kl_weight").getD (.int 0) ∧
    ∀ c, (mk c a b l kw down).attr "name" = (dictGet kw "name").getD .null := by
  have at' : ∀ (c : Cls) (k : String) (v : Val), dictGet (params c) k = some v → k ≠ "begin_context" → k ≠ "end_context" →
      (mk c a b l kw down).attr k = (dictGet kw k).getD v := by
    intro c k v hv h1 h2
    rw [attr_mk _ _ _ _ _ _ _ (by rw [hv]; rfl), if_neg (fun h => h1 h.1), if_neg (fun h => h2 h.1)]
    unfold argVal; rw [hv]
  have av : ∀ (c : Cls) (k : String) (v : Val), dictGet (params c) k = some v → argVal c kw k = (dictGet kw k).getD v := by
    intro c k v hv
    unfold argVal; rw [hv]
  have hb : ∀ (c : Cls), dictGet (params c) "begin_context" = some .null → dictGet (params c) "left_context" = some (.int 0) →
      (mk c a b l kw down).attr "begin_context" = (if (dictGet kw "begin_context").getD .null = .null
        then (dictGet kw "left_context").getD (.int 0) else (dictGet kw "begin_context").getD .null) := by
    intro c h1 h2
    rw [attr_mk _ _ _ _ _ _ _ (by rw [h1]; rfl), av c _ _ h1, av c _ _ h2]
    simp
  have he : ∀ (c : Cls), dictGet (params c) "end_context" = some .null → dictGet (params c) "right_context" = some (.int 0) →
      (mk c a b l kw down).attr "end_context" = (if (dictGet kw "end_context").getD .null = .null
        then (dictGet kw "right_context").getD (.int 0) else (dictGet kw "end_context").getD .null) := by
    intro c h1 h2
    rw [attr_mk _ _ _ _ _ _ _ (by rw [h1]; rfl), av c _ _ h1, av c _ _ h2]
    simp
  refine ⟨?_, ?_, at' _ _ _ (by decide +kernel) (by decide) (by decide), at' _ _ _ (by decide +kernel) (by decide) (by decide), ?_,
    at' _ _ _ (by decide +kernel) (by decide) (by decide), at' _ _ _ (by decide +kernel) (by decide) (by decide), ?_⟩
  · intro c hc
    simp only [List.mem_cons, List.not_mem_nil, or_false] at hc
    rcases hc with rfl | rfl <;>
      exact ⟨at' _ _ _ (by decide +kernel) (by decide) (by decide), at' _ _ _ (by decide +kernel) (by decide) (by decide)⟩
  · intro c hc
    simp only [List.mem_cons, List.not_mem_nil, or_false] at hc
    rcases hc with rfl | rfl | rfl <;>
      exact ⟨at' _ _ _ (by decide +kernel) (by decide) (by decide), at' _ _ _ (by decide +kernel) (by decide) (by decide),
        hb _ (by decide +kernel) (by decide +kernel), he _ (by decide +kernel) (by decide +kernel)⟩
  · intro c hc
    simp only [List.mem_cons, List.not_mem_nil, or_false] at hc
    rcases hc with rfl | rfl <;>
      exact ⟨at' _ _ _ (by decide +kernel) (by decide) (by decide), at' _ _ _ (by decide +kernel) (by decide) (by decide),
        at' _ _ _ (by decide +kernel) (by decide) (by decide), at' _ _ _ (by decide +kernel) (by decide) (by decide),
        at' _ _ _ (by decide +kernel) (by decide) (by decide)⟩
  · intro c
    cases c <;> exact at' _ _ _ (by decide +kernel) (by decide) (by decide)

/-- **C172 (other files).** Saving touches only the files that start with the path and end in one of the suffixes of the class, whether it
succeeds or not. -/
theorem C172_others (d : Disk N) (p q : Str) (o : Obj N) (hj : q ≠ p ++ ".json".toList)
    (h : match o.cls with
      | .seqEmbed => q ≠ p ++ ".enc.h5".toList ∧ q ≠ p ++ ".pt.h5".toList
      | .seqEmbedLDE => q ≠ p ++ ".enc.h5".toList ∧ q ≠ p ++ ".pt.h5".toList ∧ q ≠ p ++ ".lde.h5".toList
      | .seqQEmbed => q ≠ p ++ ".net1.h5".toList ∧ q ≠ p ++ ".score.h5".toList
      | .seqMetaEmbed => q ≠ p ++ ".net1.h5".toList ∧ q ≠ p ++ ".score.h5".toList) : (save d p o).1 q = d q := by
  have h12 : q ≠ p ++ (suffixes o.cls).1 ∧ q ≠ p ++ (suffixes o.cls).2 := by
    revert h
    cases o.cls <;> intro h
    · exact h
    · exact ⟨h.1, h.2.1⟩
    · exact h
    · exact h
  have h3 : o.cls = .seqEmbedLDE → q ≠ p ++ ".lde.h5".toList := by
    intro e; rw [e] at h; exact h.2.2
  unfold save
  split
  · unfold put; dsimp only; rw [if_neg h12.1, if_neg hj]
  · unfold saveLde
    split
    · next hc =>
      split
      · unfold put; dsimp only; rw [if_neg h12.2, if_neg h12.1, if_neg hj]
      · unfold put; dsimp only; rw [if_neg (h3 hc.1), if_neg h12.2, if_neg h12.1, if_neg hj]
    · unfold put; dsimp only; rw [if_neg h12.2, if_neg h12.1, if_neg hj]

/-- **C172 (embeddings).** A model that is read and built for the same length extracts with the same lengths, contexts and downsampling as the
one that was saved, provided the downsampling given to the constructor, if any, is the quotient of the lengths. -/
theorem C172_embed (inLen : N → Option Nat) (outLen : N → Nat → Nat) (c : Cls) (hc : c = .seqEmbed ∨ c = .seqEmbedLDE ∨ c = .seqQEmbed)
    (d : Disk N) (p : Str) (a b : N) (l : Option N) (kw : List (String × Val)) (down len : Option Nat)
    (hl : c = .seqEmbedLDE → (mk c a (some b) l kw down).attr "pooling" = .str "lde" → l.isSome)
    (hstale : c = .seqEmbedLDE → (mk c a (some b) l kw down).attr "pooling" ≠ .str "lde" →
      d (p ++ ".lde.h5".toList) = none ∨ ∃ n, d (p ++ ".lde.h5".toList) = some (.net n))
    (hdown : ∀ r, down = some r → ∃ n, (if len = none then inLen a else len) = some n ∧ 0 < outLen a n ∧ outLen a n * r = n) :
    ∃ o, load c (save d p (mk c a (some b) l kw down)).1 p = some o ∧
      (o.build inLen len).embCfg inLen outLen = ((mk c a (some b) l kw down).build inLen len).embCfg inLen outLen := by
  obtain ⟨-, o, h1, h2, h3, h4, h5, -, h6, h7⟩ := C172_roundtrip c d p a b l kw down hl hstale
  refine ⟨o, h1, ?_⟩
  generalize hm : mk c a (some b) l kw down = m at *
  have ha : m.a = a := by rw [← hm]; rfl
  have hd : m.down = down := by rw [← hm]; rfl
  have hattr : ∀ k ∈ ["left_context", "right_context", "begin_context", "end_context"], o.attr k = m.attr k := by
    intro k hk
    refine h5 k ?_
    revert k
    rcases hc with rfl | rfl | rfl <;> decide +kernel
  have hL : (o.build inLen len).inLength inLen = (m.build inLen len).inLength inLen := by
    unfold Obj.inLength Obj.build; dsimp only; rw [h3, ha]
  have hLv : (m.build inLen len).inLength inLen = if len = none then inLen a else len := by
    unfold Obj.inLength Obj.build; dsimp only; rw [ha]
    by_cases e : len = none
    · rw [if_pos e]; split_ifs <;> rfl
    · rw [if_neg e, if_neg e]
  have hD : (o.build inLen len).downsampling inLen outLen = (m.build inLen len).downsampling inLen outLen := by
    unfold Obj.downsampling
    rw [hL, hLv]
    have e1 : (o.build inLen len).down = none := h6
    have e2 : (m.build inLen len).down = down := hd
    have e3 : (o.build inLen len).a = a := h3
    have e4 : (m.build inLen len).a = a := ha
    rw [e1, e2, e3, e4]
    cases down with
    | none => rfl
    | some r =>
      obtain ⟨n, k1, k2, k3⟩ := hdown r rfl
      rw [k1]
      dsimp only
      have k4 : n % outLen a n = 0 := Nat.mod_eq_zero_of_dvd ⟨r, k3.symm⟩
      rw [if_pos ⟨k2, k4⟩]
      congr 1
      exact Nat.div_eq_of_eq_mul_right k2 k3.symm
  unfold Obj.embCfg
  rw [hL, hD]
  have b1 : ∀ k, (o.build inLen len).attr k = o.attr k := fun _ => rfl
  have b2 : ∀ k, (m.build inLen len).attr k = m.attr k := fun _ => rfl
  have e3 : (o.build inLen len).a = a := h3
  have e4 : (m.build inLen len).a = a := ha
  simp only [b1, b2, e3, e4]
  rw [hattr "left_context" (by simp), hattr "right_context" (by simp), hattr "begin_context" (by simp), hattr "end_context" (by simp)]

/-- **C172 (defect).** A model without its second network (a score network that was never built): `save` raises, after the configuration and the
first network are written. If the files of an older model of that name are there, reading gives the new first network with the old second
one. -/
theorem C172_half (c : Cls) (d : Disk N) (p : Str) (a b₀ : N) (l : Option N) (kw : List (String × Val)) (down : Option Nat)
    (hc : c ≠ .seqEmbedLDE) (hold : d (p ++ (if c = .seqEmbed then ".pt.h5".toList else ".score.h5".toList)) = some (.net b₀)) :
    (save d p (mk c a none l kw down)).2 = false ∧
    ∃ o, load c (save d p (mk c a none l kw down)).1 p = some o ∧ o.a = a ∧ o.b = some b₀ ∧
      ∀ k ∈ survives c, o.attr k = (mk c a none l kw down).attr k := by
  have hcls : (mk c a none l kw down).cls = c := rfl
  have ha : (mk c a none l kw down).a = a := rfl
  have hs : save d p (mk c a none l kw down) =
      (put (put d (p ++ ".json".toList) (.json (getConfig (mk c a none l kw down)))) (p ++ (suffixes c).1) (.net a), false) := rfl
  have hold' : d (p ++ (suffixes c).2) = some (.net b₀) := by
    revert hold hc
    cases c <;> intro hc hold
    · exact hold
    · exact absurd rfl hc
    · exact hold
    · exact hold
  obtain ⟨n1, n2, n3, n4, n5, n6⟩ := sfx_ne c
  have h1 : readCfg (save d p (mk c a none l kw down)).1 (p ++ ".json".toList) = some (getConfig (mk c a none l kw down)) := by
    rw [hs]; unfold readCfg put; dsimp only; rw [if_neg (app_ne n1), if_pos rfl]
  have h2 : readNet (save d p (mk c a none l kw down)).1 (p ++ (suffixes c).1) = some a := by
    rw [hs]; unfold readNet put; dsimp only; rw [if_pos rfl]
  have h3 : readNet (save d p (mk c a none l kw down)).1 (p ++ (suffixes c).2) = some b₀ := by
    rw [hs]; unfold readNet put; dsimp only; rw [if_neg (app_ne n3.symm), if_neg (app_ne n2.symm), hold']
  have h4 : loadLde c (save d p (mk c a none l kw down)).1 p = some none := by
    unfold loadLde; rw [if_neg hc]
  refine ⟨rfl, _, load_eq c _ p _ _ a b₀ none h1 h2 h3 h4 (positional_config c _ hcls), rfl, rfl, ?_⟩
  intro k hk
  exact reload_attr c a a none (some b₀) l none kw down k (survives_kept c k hk)

/-- **C172 (defect).** The order of the dictionary encoding is not saved: whatever it was, the object that is read has order 2, and so
has a new dictionary encoding that it builds. -/
theorem C172_order (d : Disk N) (p : Str) (o : Obj N) (h : load .seqEmbedLDE (save d p o).1 p = some o')
    (ho : ∃ a b l kw down, o = mk .seqEmbedLDE a b l kw down) (hb : o.b.isSome)
    (hl : o.attr "pooling" = .str "lde" → o.l.isSome) : o'.attr "lde_order" = .int 2 := by
  obtain ⟨a, b, l, kw, down, rfl⟩ := ho
  obtain ⟨b, rfl⟩ := Option.isSome_iff_exists.1 hb
  have h1 : readCfg (save d p (mk .seqEmbedLDE a (some b) l kw down)).1 (p ++ ".json".toList) = some (getConfig (mk .seqEmbedLDE a (some b) l kw down)) := by
    unfold readCfg; rw [(save_files d p _ b rfl (fun _ h => hl h)).2, if_pos rfl]
  unfold load at h
  simp only [h1, Option.bind_eq_bind, Option.bind_some, Option.bind_eq_some_iff] at h
  obtain ⟨a', -, b', -, l', -, pos, hp, he⟩ := h
  have hpos : pos = [] := by
    unfold positional at hp; exact (Option.some.inj hp).symm
  subst hpos
  rw [← Option.some.inj he, attr_mk _ _ _ _ _ _ _ (by decide +kernel), if_neg (fun h => absurd h.1 (by decide)), if_neg (fun h => absurd h.1 (by decide))]
  have hn : dictGet ([] ++ kwOf (getConfig (mk .seqEmbedLDE a (some b) l kw down)) (loadKeys .seqEmbedLDE)) "lde_order" = none := by
    rw [List.nil_append, dictGet_kwOf, if_pos (by decide +kernel), dictGet_config, if_neg (by decide), if_neg (by decide)]
    rw [if_neg (c := "lde_order" ∈ configKeys _) (by show "lde_order" ∉ configKeys .seqEmbedLDE; decide +kernel)]
  unfold argVal
  rw [hn]; rfl

/-- **C172 (defect).** The downsampling given to the constructor is not saved: an encoder that gives 133 frames for 400 works with
`enc_downsampling=3`; the model read from its files raises when it extracts an embedding. -/
theorem C172_downsampling : ¬ ∀ (down : Option Nat) (o : Obj Unit),
    load .seqEmbed (save (fun _ => none) [] (mk .seqEmbed () (some ()) none [] down)).1 [] = some o →
    ((mk .seqEmbed () (some ()) none [] down).build (fun _ => none) (some 400)).embCfg (fun _ => none) (fun _ n => n / 3) =
      (o.build (fun _ => none) (some 400)).embCfg (fun _ => none) (fun _ n => n / 3) := by
  intro h
  obtain ⟨-, o, h1, -, -, -, -, -, h6, -⟩ := C172_roundtrip .seqEmbed (fun _ => none) [] () () none [] (some 3) (by decide) (by decide)
  have h2 := h (some 3) o h1
  have h3 : ((mk .seqEmbed () (some ()) none [] (some 3)).build (fun _ => none) (some 400)).embCfg (fun _ => none) (fun _ n => n / 3) =
      some ⟨400, 133, 3, 0, 0, 0, 0⟩ := by decide +kernel
  have h4 : (o.build (fun _ => none) (some 400)).embCfg (fun _ => none) (fun _ n => n / 3) = none := by
    have hd : (o.build (fun _ => none) (some 400)).downsampling (fun _ => none) (fun _ n => n / 3) = none := by
      unfold Obj.downsampling
      have : (o.build (fun _ => none) (some 400)).down = none := h6
      have h5 : (o.build (fun _ => none) (some 400)).inLength (fun _ => none) = some 400 := rfl
      rw [this, h5]
      show (if 0 < 400 / 3 ∧ 400 % (400 / 3) = 0 then some (400 / (400 / 3)) else none) = none
      exact (by decide : (if 0 < 400 / 3 ∧ 400 % (400 / 3) = 0 then some (400 / (400 / 3)) else none) = (none : Option Nat))
    unfold Obj.embCfg
    rw [hd]; rfl
  rw [h3, h4] at h2
  cases h2

/-- a model with the dictionary encoding as pooling, its files in an empty directory -/
example : (∀ k ∈ survives .seqEmbedLDE, k ∈ (params .seqEmbedLDE).map Prod.fst) ∧
    (mk .seqEmbedLDE 1 (some 2) (some 3) [("pooling", .str "lde"), ("left_context", .int 4)] none).attr "pooling" = .str "lde" ∧
    (mk .seqEmbedLDE 1 (some 2) (some 3) [("pooling", .str "lde"), ("left_context", .int 4)] none).attr "begin_context" = .int 4 := by
  decide +kernel

/-- **C172 (defect).** With pooling `lde` a model that was not built has no network of the dictionary: `save` raises. -/
theorem C172_unbuilt (d : Disk N) (p : Str) (a b : N) (kw : List (String × Val)) (down : Option Nat) (h : dictGet kw "pooling" = some (.str "lde")) :
    (save d p (mk .seqEmbedLDE a (some b) none kw down)).2 = false := by
  have h1 : (mk .seqEmbedLDE a (some b) none kw down).attr "pooling" = .str "lde" := by
    rw [((C172_arguments a (some b) none kw down).1 .seqEmbedLDE (by simp)).1, h]; rfl
  have hs : save d p (mk .seqEmbedLDE a (some b) none kw down) = saveLde (put (put (put d (p ++ ".json".toList)
      (.json (getConfig (mk .seqEmbedLDE a (some b) none kw down)))) (p ++ (suffixes .seqEmbedLDE).1) (.net a)) (p ++ (suffixes .seqEmbedLDE).2) (.net b)) p
      (mk .seqEmbedLDE a (some b) none kw down) := rfl
  rw [hs]
  unfold saveLde
  rw [if_pos ⟨rfl, h1⟩]
  rfl

end Hyp.Keras.SaveLoad

namespace Hyp.Keras
open Classical in
/-- **C172 (dictionary encoding of a long sequence).** Under the hypotheses of `C148_whole`, the dictionary encoding of a sequence of any length is that of
the frames that the encoder computes on the whole sequence, between the begin and the end context, each with weight one. -/
theorem C172_lde {α : Type} {D C : Nat} [NeZero C] (order : Nat) (mu : Fin C → Fin D → ℝ) (s : Fin C → ℝ) (c : EmbCfg) (enc : List α → List (Fin D → ℝ))
    (φ : (Nat → α) → (Fin D → ℝ)) (z : α) (zy : Fin D → ℝ) (rc : Nat) (x : List α) (hr : 0 < c.r) (hN : c.r ∣ c.N)
    (hP : c.P = c.N / c.r) (hl : c.left = 0) (hri : c.r ∣ c.right) (hb : c.r ∣ c.beginC) (he : c.r ∣ c.endC) (hlt : c.right < c.N)
    (hrc : rc ≤ c.right) (hend : rc ≤ c.endC) (hx : c.endC ≤ x.length) (hlook : Looks φ c.r rc) (henc : EncodesBy enc φ c.r c.P z) :
    ∃ y mask, predictFrames c enc z zy x = some (y, mask) ∧
      lde order mu s (y.zip (mask.map (fun b => if b then (1 : ℝ) else 0))) =
      lde order mu s (((List.range (x.length / c.r)).filter
          (fun p => decide (c.beginC ≤ p * c.r ∧ (p + 1) * c.r + c.endC ≤ x.length))).map (fun p => (encFrame φ c.r z x p, 1))) := by
  obtain ⟨y, mask, h1, h2, h3, h4, h5⟩ := C148_whole c enc φ z zy rc x hr hN hP hl hri hb he hlt hrc hend hx hlook henc
  refine ⟨y, mask, h1, (C144_lde_invariance order mu s _ _ ?_ (fun _ => 0)).1⟩
  have hy : y = (List.range (x.length / c.r)).map (fun p => y.getD p zy) := by
    apply List.ext_getElem
    · simp [h2]
    · intro n ha hb'
      simp [List.getD_eq_getElem?_getD, List.getElem?_eq_getElem ha]
  have hm : mask = (List.range (x.length / c.r)).map (fun p => mask.getD p false) := by
    apply List.ext_getElem
    · simp [h3]
    · intro n ha hb'
      simp [List.getD_eq_getElem?_getD, List.getElem?_eq_getElem ha]
  apply List.Perm.of_eq
  rw [hy, hm]
  generalize List.range (x.length / c.r) = l
  induction l with
  | nil => rfl
  | cons p l ih =>
    simp only [List.map_cons, List.zip_cons_cons]
    by_cases hc : c.beginC ≤ p * c.r ∧ (p + 1) * c.r + c.endC ≤ x.length
    · have hp := (h4 p).2 hc
      rw [List.filter_cons (x := p), if_pos (decide_eq_true hc), List.map_cons]
      have e1 : y.getD p zy = encFrame φ c.r z x p := by simp [List.getD_eq_getElem?_getD, h5 p hp]
      have e2 : mask.getD p false = true := by simp [List.getD_eq_getElem?_getD, hp]
      rw [e1, e2, List.filter_cons_of_pos (by simp), List.filter_cons_of_pos (by simp), ih]
      rfl
    · have hp : mask.getD p false = false := by
        rw [List.getD_eq_getElem?_getD]
        rcases hmp : mask[p]? with _ | b
        · rfl
        · cases b
          · rfl
          · exact absurd ((h4 p).1 hmp) hc
      have hd : ¬ (decide (c.beginC ≤ p * c.r ∧ (p + 1) * c.r + c.endC ≤ x.length) = true) := by simpa using hc
      rw [hp, List.filter_cons (x := p), if_neg hd, List.filter_cons_of_neg (by simp), ih]

end Hyp.Keras
