import Verif.Spec.Model
import Verif.TextLemmas

/-! Property C28: what a read or write specifier means. -/

namespace Hyp.Spec
open Hyp.Text

/-! ### specification -/

/-- `sep`-joined fields. -/
def join (sep : Char) : List Str → Str
  | [] => []
  | [f] => f
  | f :: g :: fs => f ++ sep :: join sep (g :: fs)

/-- a path that can be written in a specifier: not empty, no `,` or `:`, no blank at its ends. -/
structure PathOk (p : Str) : Prop where
  ne : p ≠ []
  comma : ',' ∉ p
  colon : ':' ∉ p
  first : ∀ c ∈ p.head?, isSpace c = false
  last : ∀ c ∈ p.getLast?, isSpace c = false

/-- the documented options of a write specifier. -/
inductive WOpt
  | h5 | ark | scp | f | b | t | nf | p
  deriving DecidableEq

def WOpt.str : WOpt → Str
  | .h5 => ['h', '5'] | .ark => ['a', 'r', 'k'] | .scp => ['s', 'c', 'p'] | .f => ['f'] | .b => ['b'] | .t => ['t']
  | .nf => ['n', 'f'] | .p => ['p']

/-- options that stand for a file. -/
def WOpt.isFile : WOpt → Bool
  | .h5 | .ark | .scp => true
  | _ => false

/-- the type of archive an option stands for. -/
def WOpt.archType : WOpt → Option ArchiveType
  | .h5 => some .h5
  | .ark => some .ark
  | _ => none

/-- the files named by a specifier: the file options take the paths in order; there is at most one archive
(`h5` or `ark`) and at most one script, and at least one of them. -/
def wFiles : List WOpt → List Str → Option (WSpecType × Option Str × Option Str × Option ArchiveType)
  | [.scp], q :: _ => some (.script, none, some q, none)
  | [o], p :: _ => o.archType.map (fun t => (.archive, some p, none, some t))
  | [.scp, o], q :: p :: _ => o.archType.map (fun t => (.both, some p, some q, some t))
  | [o, .scp], p :: q :: _ => o.archType.map (fun t => (.both, some p, some q, some t))
  | _, _ => none

/-- what the write specifier with these options and paths means; `none`: it is malformed. Text mode and permissive
mode exist for ark archives only. -/
def wMeaning (opts : List WOpt) (paths : List Str) : Option WSpecifier :=
  (wFiles (opts.filter WOpt.isFile) paths).map (fun (ty, a, s, t) =>
    ⟨ty, a, s, t, !(decide (t = some .ark) && opts.contains .t), opts.contains .f,
      decide (t = some .ark) && opts.contains .p⟩)

/-! ### text -/

theorem splitAll_join {sep : Char} : ∀ {fs : List Str}, fs ≠ [] → (∀ f ∈ fs, sep ∉ f) → splitAll sep (join sep fs) = fs
  | [f], _, h => splitAll_noSep (h f (by simp))
  | f :: g :: fs, _, h => by
    rw [join, splitAll_append (h f (by simp)), splitAll_join (by simp) (fun x hx => h x (List.mem_cons_of_mem _ hx))]

theorem mem_join {sep c : Char} : ∀ {fs : List Str}, c ∈ join sep fs → c = sep ∨ ∃ f ∈ fs, c ∈ f
  | [], h => by simp [join] at h
  | [f], h => Or.inr ⟨f, by simp, h⟩
  | f :: g :: fs, h => by
    simp only [join, List.mem_append, List.mem_cons] at h
    rcases h with h | h | h
    · exact Or.inr ⟨f, by simp, h⟩
    · exact Or.inl h
    · rcases mem_join h with h | ⟨x, hx, hc⟩
      · exact Or.inl h
      · exact Or.inr ⟨x, List.mem_cons_of_mem _ hx, hc⟩

theorem strip_id {s : Str} (h0 : ∀ c ∈ s.head?, isSpace c = false) (h1 : ∀ c ∈ s.getLast?, isSpace c = false) :
    strip s = s := by
  unfold strip
  rw [rstrip_id h1]
  unfold lstrip
  cases s with
  | nil => rfl
  | cons c cs => rw [List.dropWhile_cons_of_neg]; simp [h0 c (by simp)]

theorem head_join {sep : Char} {f : Str} {fs : List Str} (hf : f ≠ []) : (join sep (f :: fs)).head? = f.head? := by
  cases fs with
  | nil => rfl
  | cons g fs => cases f with
    | nil => exact absurd rfl hf
    | cons c cs => rfl

theorem join_ne_nil {sep : Char} {f : Str} {fs : List Str} (hf : f ≠ []) : join sep (f :: fs) ≠ [] := by
  intro h
  have := head_join (sep := sep) (fs := fs) hf
  rw [h] at this
  cases f with
  | nil => exact hf rfl
  | cons c cs => simp at this

theorem last_join {sep : Char} : ∀ {fs : List Str}, (∀ f ∈ fs, f ≠ []) → (hne : fs ≠ []) →
    (join sep fs).getLast? = (fs.getLast hne).getLast?
  | [f], _, _ => rfl
  | f :: g :: fs, h, _ => by
    rw [join, List.getLast?_append]
    have hne := join_ne_nil (sep := sep) (fs := fs) (h g (by simp))
    have : (sep :: join sep (g :: fs)).getLast? = (join sep (g :: fs)).getLast? := by
      cases hj : join sep (g :: fs) with
      | nil => exact absurd hj hne
      | cons c cs => simp [List.getLast?_cons]
    rw [this, last_join (fun x hx => h x (List.mem_cons_of_mem _ hx)) (List.cons_ne_nil g fs), List.getLast_cons (List.cons_ne_nil g fs)]
    cases hl : ((g :: fs).getLast (by simp)).getLast? with
    | none =>
      have := h _ (List.mem_cons_of_mem f (List.getLast_mem (l := g :: fs) (by simp)))
      rw [List.getLast?_eq_none_iff] at hl
      exact absurd hl this
    | some c => rfl

theorem strip_join {sep : Char} {fs : List Str} (hne : fs ≠ []) (h : ∀ f ∈ fs, f ≠ [])
    (h0 : ∀ f ∈ fs, ∀ c ∈ f.head?, isSpace c = false) (h1 : ∀ f ∈ fs, ∀ c ∈ f.getLast?, isSpace c = false) :
    strip (join sep fs) = join sep fs := by
  apply strip_id
  · cases fs with
    | nil => exact absurd rfl hne
    | cons f fs => rw [head_join (h f (by simp))]; exact h0 f (by simp)
  · rw [last_join h hne]; exact h1 _ (List.getLast_mem _)

/-- fields of `options:paths`. -/
theorem split_spec {opts paths : List Str} (ho : opts ≠ []) (hp : paths ≠ [])
    (hopt : ∀ o ∈ opts, o ≠ [] ∧ (∀ c ∈ o, isSpace c = false) ∧ ':' ∉ o) (hpath : ∀ p ∈ paths, PathOk p) :
    splitAll ':' (strip (join ',' opts ++ ':' :: join ',' paths)) = [join ',' opts, join ',' paths] := by
  have hs : strip (join ',' opts ++ ':' :: join ',' paths) = join ',' opts ++ ':' :: join ',' paths := by
    have : join ',' opts ++ ':' :: join ',' paths = join ':' [join ',' opts, join ',' paths] := rfl
    rw [this]
    obtain ⟨o, os, rfl⟩ := List.exists_cons_of_ne_nil ho
    obtain ⟨p, ps, rfl⟩ := List.exists_cons_of_ne_nil hp
    refine strip_join (by simp) ?_ ?_ ?_
    · intro f hf
      simp only [List.mem_cons, List.not_mem_nil, or_false] at hf
      rcases hf with rfl | rfl
      · exact join_ne_nil (hopt o (by simp)).1
      · exact join_ne_nil (hpath p (by simp)).ne
    · intro f hf
      simp only [List.mem_cons, List.not_mem_nil, or_false] at hf
      rcases hf with rfl | rfl
      · rw [head_join (hopt o (by simp)).1]
        intro c hc
        exact (hopt o (by simp)).2.1 c (List.mem_of_mem_head? hc)
      · rw [head_join (hpath p (by simp)).ne]; exact (hpath p (by simp)).first
    · intro f hf
      simp only [List.mem_cons, List.not_mem_nil, or_false] at hf
      rcases hf with rfl | rfl
      · rw [last_join (fun x hx => (hopt x hx).1) (by simp)]
        intro c hc
        exact (hopt _ (List.getLast_mem _)).2.1 c (List.mem_of_getLast? hc)
      · rw [last_join (fun x hx => (hpath x hx).ne) (by simp)]
        exact (hpath _ (List.getLast_mem _)).last
  rw [hs, splitAll_append, splitAll_noSep]
  · intro h
    rcases mem_join h with h | ⟨f, hf, hc⟩
    · exact absurd h (by decide)
    · exact (hpath f hf).colon hc
  · intro h
    rcases mem_join h with h | ⟨f, hf, hc⟩
    · exact absurd h (by decide)
    · exact (hopt f hf).2.2 hc

theorem fields_paths {paths : List Str} (hp : paths ≠ []) (hpath : ∀ p ∈ paths, PathOk p) :
    splitAll ',' (strip (join ',' paths)) = paths := by
  rw [strip_join hp (fun f hf => (hpath f hf).ne) (fun f hf => (hpath f hf).first) (fun f hf => (hpath f hf).last)]
  exact splitAll_join hp (fun f hf => (hpath f hf).comma)

theorem fields_opts {opts : List Str} (hp : opts ≠ [])
    (hopt : ∀ o ∈ opts, o ≠ [] ∧ (∀ c ∈ o, isSpace c = false) ∧ ',' ∉ o) :
    splitAll ',' (strip (join ',' opts)) = opts := by
  rw [strip_join hp (fun f hf => (hopt f hf).1) (fun f hf c hc => (hopt f hf).2.1 c (List.mem_of_mem_head? hc))
    (fun f hf c hc => (hopt f hf).2.1 c (List.mem_of_getLast? hc))]
  exact splitAll_join hp (fun f hf => (hopt f hf).2.2)

/-! ### write specifiers -/

theorem WOpt.str_inj : ∀ {a b : WOpt}, a.str = b.str → a = b := by
  intro a b; cases a <;> cases b <;> simp [WOpt.str]

theorem WOpt.str_ok (o : WOpt) : o.str ≠ [] ∧ (∀ c ∈ o.str, isSpace c = false) ∧ ':' ∉ o.str ∧ ',' ∉ o.str := by
  cases o <;> simp [WOpt.str] <;> decide

theorem wContains (opts : List WOpt) (o : WOpt) : (opts.map WOpt.str).contains o.str = opts.contains o := by
  induction opts with
  | nil => rfl
  | cons a opts ih =>
    simp only [List.map_cons, List.contains_cons, ih]
    congr 1
    by_cases h : o = a
    · simp [h]
    · have h2 : o.str ≠ a.str := fun h' => h (WOpt.str_inj h')
      simp [h, h2]

/-- a file option without the flags. -/
def fileStep (paths : List Str) (st : WState) : WOpt → Option WState
  | .h5 => st.takeArchive paths .h5
  | .ark => st.takeArchive paths .ark
  | .scp => st.takeScript paths
  | _ => some st

theorem wStep_str (paths : List Str) (st : WState) (o : WOpt) :
    wStep paths st o.str = if o = .f then some { st with flush := true } else fileStep paths st o := by
  cases o <;> simp [wStep, WOpt.str, fileStep]

theorem fileStep_flush (paths : List Str) (st : WState) (b : Bool) (o : WOpt) :
    fileStep paths { st with flush := b } o = (fileStep paths st o).map (fun s => { s with flush := b }) := by
  cases o <;> simp only [fileStep, WState.takeArchive, WState.takeScript] <;> (try rfl) <;>
    (split <;> simp [Function.comp_def])

theorem flush_of_fileStep {paths : List Str} {st st' : WState} {o : WOpt} (h : fileStep paths st o = some st') :
    st'.flush = st.flush := by
  cases o <;> simp only [fileStep, WState.takeArchive, WState.takeScript] at h <;>
    first
    | (simp at h; rw [← h]; done)
    | (split at h
       · simp at h; obtain ⟨a, _, rfl⟩ := h; rfl
       · simp at h)

theorem foldlM_fileStep_flush (paths : List Str) (l : List WOpt) (st : WState) (b : Bool) :
    l.foldlM (fileStep paths) { st with flush := b } = (l.foldlM (fileStep paths) st).map (fun s => { s with flush := b }) := by
  induction l generalizing st with
  | nil => rfl
  | cons o l ih =>
    simp only [List.foldlM_cons, fileStep_flush, Option.bind_eq_bind]
    cases fileStep paths st o with
    | none => rfl
    | some s => exact ih s

theorem wLoop (paths : List Str) (opts : List WOpt) (st : WState) :
    (opts.map WOpt.str).foldlM (wStep paths) st =
      ((opts.filter WOpt.isFile).foldlM (fileStep paths) st).map (fun s => { s with flush := st.flush || opts.contains .f }) := by
  induction opts generalizing st with
  | nil => cases st; simp
  | cons o opts ih =>
    simp only [List.map_cons, List.foldlM_cons, wStep_str, Option.bind_eq_bind]
    by_cases hf : o = .f
    · subst hf
      simp only [if_true, Option.bind_some, ih]
      rw [List.filter_cons_of_neg (by decide), foldlM_fileStep_flush, Option.map_map]
      congr 1
      funext s
      simp
    · rw [if_neg hf]
      have hc : (o :: opts).contains .f = opts.contains .f := by
        rw [List.contains_cons]; simp [Ne.symm hf]
      cases hfile : o.isFile with
      | true =>
        rw [List.filter_cons_of_pos hfile, List.foldlM_cons]
        cases hs : fileStep paths st o with
        | none => rfl
        | some s => simp only [Option.bind_some, Option.bind_eq_bind, ih, hc, flush_of_fileStep hs]
      | false =>
        rw [List.filter_cons_of_neg (by simp [hfile])]
        have : fileStep paths st o = some st := by cases o <;> simp_all [fileStep, WOpt.isFile]
        rw [this]
        simp only [Option.bind_some, ih, hc]

theorem filesLoop (paths : List Str) (fs : List WOpt) (hfs : ∀ o ∈ fs, o.isFile = true) :
    ((fs.foldlM (fileStep paths) ⟨none, none, none, false, 0⟩).bind (fun s =>
      (wType s).map (fun ty => (ty, s.archive, s.script, s.archiveType)))) = wFiles fs paths := by
  have h1 : ∀ o ∈ fs, o = .h5 ∨ o = .ark ∨ o = .scp := by
    intro o ho; have := hfs o ho; cases o <;> simp_all [WOpt.isFile]
  match fs, h1 with
  | [], _ => rfl
  | [a], h =>
    rcases h a (by simp) with rfl | rfl | rfl <;> cases paths <;> rfl
  | [a, b], h =>
    rcases h a (by simp) with rfl | rfl | rfl <;> rcases h b (by simp) with rfl | rfl | rfl <;>
      rcases paths with _ | ⟨p, _ | ⟨q, ps⟩⟩ <;> rfl
  | a :: b :: c :: l, h =>
    have hn : wFiles (a :: b :: c :: l) paths = none := by
      simp [wFiles]
    rw [hn]
    have : [a, b, c].foldlM (fileStep paths) ⟨none, none, none, false, 0⟩ = none := by
      rcases h a (by simp) with rfl | rfl | rfl <;> rcases h b (by simp) with rfl | rfl | rfl <;>
        rcases h c (by simp) with rfl | rfl | rfl <;>
        rcases paths with _ | ⟨p, _ | ⟨q, ps⟩⟩ <;> rfl
    have e : a :: b :: c :: l = [a, b, c] ++ l := rfl
    rw [e, List.foldlM_append, this]; rfl

/-- `WSpecifier.create` on any list of documented options and any list of paths gives exactly the documented
meaning, and raises exactly when the specifier is malformed: no file option, two archives, two scripts, or fewer
paths than file options. (Surplus paths are accepted, see `C28_surplus_paths_accepted`.) -/
theorem C28_write_spec_partial (opts : List WOpt) (paths : List Str) (ho : opts ≠ []) (hp : paths ≠ [])
    (hpath : ∀ p ∈ paths, PathOk p) :
    wCreate (join ',' (opts.map WOpt.str) ++ ':' :: join ',' paths) = wMeaning opts paths := by
  have ho' : opts.map WOpt.str ≠ [] := by simpa using ho
  have hstr : ∀ o ∈ opts.map WOpt.str, o ≠ [] ∧ (∀ c ∈ o, isSpace c = false) ∧ ':' ∉ o ∧ ',' ∉ o := by
    intro o h; obtain ⟨a, _, rfl⟩ := List.mem_map.1 h; exact a.str_ok
  unfold wCreate
  rw [split_spec ho' hp (fun o h => ⟨(hstr o h).1, (hstr o h).2.1, (hstr o h).2.2.1⟩) hpath]
  simp only
  unfold wCreate2
  rw [fields_paths hp hpath, fields_opts ho' (fun o h => ⟨(hstr o h).1, (hstr o h).2.1, (hstr o h).2.2.2⟩)]
  simp only [wLoop, Bool.false_or]
  unfold wMeaning
  rw [← filesLoop paths _ (fun o h => (List.mem_filter.1 h).2)]
  have ht := wContains opts .t
  have hpp := wContains opts .p
  simp only [WOpt.str] at ht hpp
  simp only [ht, hpp, Option.bind_eq_bind]
  cases (opts.filter WOpt.isFile).foldlM (fileStep paths) ⟨none, none, none, false, 0⟩ with
  | none => rfl
  | some s =>
    simp only [Option.map_some, Option.bind_some]
    have : wType { s with flush := opts.contains .f } = wType s := rfl
    rw [this]
    cases wType s <;> rfl

/-- The order of the flags does not matter, only the order of the file options and which flags are given. -/
theorem C28_flag_order (opts opts' : List WOpt) (paths : List Str)
    (hfiles : opts.filter WOpt.isFile = opts'.filter WOpt.isFile) (hflags : ∀ o, o ∈ opts ↔ o ∈ opts')
    (ho : opts ≠ []) (hp : paths ≠ []) (hpath : ∀ p ∈ paths, PathOk p) :
    wCreate (join ',' (opts.map WOpt.str) ++ ':' :: join ',' paths) =
      wCreate (join ',' (opts'.map WOpt.str) ++ ':' :: join ',' paths) := by
  have ho' : opts' ≠ [] := by
    obtain ⟨a, l, rfl⟩ := List.exists_cons_of_ne_nil ho
    intro h; have := (hflags a).1 (by simp); rw [h] at this; simp at this
  rw [C28_write_spec_partial opts paths ho hp hpath, C28_write_spec_partial opts' paths ho' hp hpath]
  have : ∀ o, opts.contains o = opts'.contains o := by
    intro o; rw [Bool.eq_iff_iff]; simpa using hflags o
  unfold wMeaning
  simp only [hfiles, this]

/-- Without `:` the string is the path of an hdf5 archive; an empty string raises. -/
theorem C28_plain_path (firstLine : Str → Option Str) (p : Str) (hp : ':' ∉ strip p) :
    (strip p ≠ [] → wCreate p = some ⟨.archive, some (strip p), none, some .h5, true, false, false⟩ ∧
      rCreate firstLine p = some ⟨.archive, strip p, .h5, false, false, false, false, false⟩) ∧
    (strip p = [] → wCreate p = none ∧ rCreate firstLine p = none) := by
  unfold wCreate rCreate
  rw [splitAll_noSep hp]
  constructor <;> intro h <;> simp [h]

theorem foldlM_none {σ : Type} {f : σ → Str → Option σ} {o : Str} (hf : ∀ s, f s o = none) {l : List Str} (h : o ∈ l) (s : σ) :
    l.foldlM f s = none := by
  induction l generalizing s with
  | nil => simp at h
  | cons a l ih =>
    rw [List.foldlM_cons, Option.bind_eq_bind]
    rcases List.mem_cons.1 h with rfl | h
    · rw [hf]; rfl
    · cases f s a with
      | none => rfl
      | some s => exact ih h s

/-- An unknown option raises, in both kinds of specifier. -/
theorem C28_unknown_option (firstLine : Str → Option Str) (f g o : Str) (ho : o ∈ splitAll ',' (strip f)) :
    ((∀ w : WOpt, o ≠ w.str) → wCreate2 f g = none) ∧
    (o ∉ [['h', '5'], ['a', 'r', 'k'], ['s', 'c', 'p'], ['p'], ['o'], ['s'], ['c', 's'], ['b', 'g']] →
      rCreate2 firstLine f g = none) := by
  constructor
  · intro h
    unfold wCreate2
    simp only [Option.bind_eq_bind]
    rw [foldlM_none (o := o) ?_ ho]
    · rfl
    · intro s
      have h5 := h .h5; have hark := h .ark; have hscp := h .scp; have hf := h .f; have hb := h .b; have ht := h .t
      have hnf := h .nf; have hp := h .p
      simp only [WOpt.str] at h5 hark hscp hf hb ht hnf hp
      simp [wStep, h5, hark, hscp, hf, hb, ht, hnf, hp]
  · intro h
    simp only [List.mem_cons, List.not_mem_nil, or_false, not_or] at h
    unfold rCreate2
    simp only [Option.bind_eq_bind]
    rw [foldlM_none (f := rStep) (o := o) ?_ ho]
    · split <;> rfl
    · intro s
      simp [rStep, h]

/-- More than one `:` raises (so paths cannot hold a `:`, as in a drive letter or an offset). -/
theorem C28_two_colons (firstLine : Str → Option Str) (s : Str) (h : 2 < (splitAll ':' (strip s)).length) :
    wCreate s = none ∧ rCreate firstLine s = none := by
  unfold wCreate rCreate
  match hs : splitAll ':' (strip s), h with
  | a :: b :: c :: l, _ => exact ⟨rfl, rfl⟩

/-- More paths than file options: the surplus is ignored, not reported. -/
theorem C28_surplus_paths_accepted :
    wCreate "ark:a.ark,b.ark".toList = some ⟨.archive, some "a.ark".toList, none, some .ark, true, false, false⟩ := by
  decide

/-- An option after a blank is not recognised. -/
theorem C28_blank_after_comma_raises : wCreate "ark, t:a.ark".toList = none := by decide

/-! ### read specifiers -/

/-- the options of a read specifier that the code accepts. -/
inductive ROpt
  | h5 | ark | scp | o | s | cs | p | bg
  deriving DecidableEq

def ROpt.str : ROpt → Str
  | .h5 => ['h', '5'] | .ark => ['a', 'r', 'k'] | .scp => ['s', 'c', 'p'] | .o => ['o'] | .s => ['s'] | .cs => ['c', 's']
  | .p => ['p'] | .bg => ['b', 'g']

def ROpt.isFile : ROpt → Bool
  | .h5 | .ark | .scp => true
  | _ => false

/-- kind of file a specifier stands for: exactly one file option. For a script the type of its data files is that
of the first entry of the script. -/
def rFile (firstLine : Str → Option Str) (path : Str) : List ROpt → Option (RSpecType × ArchiveType)
  | [.h5] => some (.archive, .h5)
  | [.ark] => some (.archive, .ark)
  | [.scp] => (scriptArchiveType firstLine path).map (fun t => (.script, t))
  | _ => none

/-- what the read specifier with these options and path means. -/
def rMeaning (firstLine : Str → Option Str) (opts : List ROpt) (path : Str) : Option RSpecifier :=
  (rFile firstLine path (opts.filter ROpt.isFile)).map (fun (ty, t) =>
    ⟨ty, path, t, decide (t = .ark) && opts.contains .o, decide (t = .ark) && opts.contains .s,
      decide (t = .ark) && opts.contains .cs, opts.contains .p, decide (t = .ark) && opts.contains .bg⟩)

theorem ROpt.str_inj : ∀ {a b : ROpt}, a.str = b.str → a = b := by
  intro a b; cases a <;> cases b <;> simp [ROpt.str]

theorem ROpt.str_ok (o : ROpt) : o.str ≠ [] ∧ (∀ c ∈ o.str, isSpace c = false) ∧ ':' ∉ o.str ∧ ',' ∉ o.str := by
  cases o <;> simp [ROpt.str] <;> decide

theorem rContains (opts : List ROpt) (o : ROpt) : (opts.map ROpt.str).contains o.str = opts.contains o := by
  induction opts with
  | nil => rfl
  | cons a opts ih =>
    simp only [List.map_cons, List.contains_cons, ih]
    congr 1
    by_cases h : o = a
    · simp [h]
    · have h2 : o.str ≠ a.str := fun h' => h (ROpt.str_inj h')
      simp [h, h2]

/-- kind given by a file option. -/
def fileKind : ROpt → Option (RSpecType × Option ArchiveType)
  | .h5 => some (.archive, some .h5)
  | .ark => some (.archive, some .ark)
  | .scp => some (.script, none)
  | _ => none

theorem rLoop (opts : List ROpt) (st : RState) :
    (opts.map ROpt.str).foldlM rStep st =
      match opts.filter ROpt.isFile with
      | [] => some ⟨st.kind, st.permissive || opts.contains .p⟩
      | [o] => if st.kind = none then some ⟨fileKind o, st.permissive || opts.contains .p⟩ else none
      | _ => none := by
  induction opts generalizing st with
  | nil => cases st; simp
  | cons o opts ih =>
    obtain ⟨k, p⟩ := st
    simp only [List.map_cons, List.foldlM_cons, Option.bind_eq_bind]
    cases o
    case h5 | ark | scp =>
      rw [List.filter_cons_of_pos rfl]
      by_cases hk : k = none
      · simp only [rStep, ROpt.str, hk]
        simp [ih]
        cases h : opts.filter ROpt.isFile with
        | nil => simp [fileKind]
        | cons a l => cases l <;> simp
      · simp only [rStep, ROpt.str, hk]
        simp
        cases h : opts.filter ROpt.isFile with
        | nil => simp [hk]
        | cons a l => rfl
    case p =>
      rw [List.filter_cons_of_neg (by decide)]
      simp [rStep, ROpt.str, ih]
    case o | s | cs | bg =>
      rw [List.filter_cons_of_neg (by decide)]
      simp [rStep, ROpt.str, ih]

/-- `RSpecifier.create` on any list of accepted options and one path gives exactly the documented meaning, and raises
exactly when there is not exactly one file option or the script cannot be read. -/
theorem C28_read_spec_partial (firstLine : Str → Option Str) (opts : List ROpt) (path : Str) (ho : opts ≠ [])
    (hpath : PathOk path) :
    rCreate firstLine (join ',' (opts.map ROpt.str) ++ ':' :: path) = rMeaning firstLine opts path := by
  have ho' : opts.map ROpt.str ≠ [] := by simpa using ho
  have hstr : ∀ o ∈ opts.map ROpt.str, o ≠ [] ∧ (∀ c ∈ o, isSpace c = false) ∧ ':' ∉ o ∧ ',' ∉ o := by
    intro o h; obtain ⟨a, _, rfl⟩ := List.mem_map.1 h; exact a.str_ok
  have hp1 : ∀ p ∈ [path], PathOk p := by simpa using hpath
  unfold rCreate
  have := split_spec (paths := [path]) ho' (by simp) (fun o h => ⟨(hstr o h).1, (hstr o h).2.1, (hstr o h).2.2.1⟩) hp1
  simp only [join] at this
  rw [this]
  simp only
  unfold rCreate2
  have hf := fields_paths (paths := [path]) (by simp) hp1
  simp only [join] at hf
  rw [hf, fields_opts ho' (fun o h => ⟨(hstr o h).1, (hstr o h).2.1, (hstr o h).2.2.2⟩)]
  have h1 := rContains opts .o
  have h2 := rContains opts .s
  have h3 := rContains opts .cs
  have h4 := rContains opts .bg
  simp only [ROpt.str] at h1 h2 h3 h4
  simp only [rLoop, Bool.false_or, h1, h2, h3, h4]
  unfold rMeaning
  have hfile : ∀ o ∈ opts.filter ROpt.isFile, o = .h5 ∨ o = .ark ∨ o = .scp := by
    intro o h; have := (List.mem_filter.1 h).2; cases o <;> simp_all [ROpt.isFile]
  match hl : opts.filter ROpt.isFile, hfile with
  | [], _ => rfl
  | [o], h =>
    rcases h o (by simp) with rfl | rfl | rfl
    · rfl
    · rfl
    · simp only [rFile, fileKind]
      cases scriptArchiveType firstLine path <;> rfl
  | _ :: _ :: _, _ => simp [rFile]

/-- The documented options `b` and `t` ("ignored for scripting convenience") and the negated ones raise. -/
theorem C28_documented_read_options_raise (firstLine : Str → Option Str) :
    ∀ s ∈ ["ark,b:a".toList, "ark,t:a".toList, "ark,no:a".toList, "ark,np:a".toList], rCreate firstLine s = none := by
  intro s hs
  simp only [List.mem_cons, List.not_mem_nil, or_false] at hs
  rcases hs with rfl | rfl | rfl | rfl <;> rfl

/-- Several paths raise. -/
theorem C28_read_several_paths (firstLine : Str → Option Str) (f g : Str) (h : 1 < (splitAll ',' (strip g)).length) :
    rCreate2 firstLine f g = none := by
  unfold rCreate2
  match hs : splitAll ',' (strip g), h with
  | a :: b :: l, _ => rfl

/-! ### the script's first line decides the type of its data files -/

/-- the `:offset` of a script entry, if any. -/
def offsetText : Option Str → Str
  | some o => ':' :: o
  | none => []

/-- the `[range]` of a script entry, if any. -/
def rangeText : Option Str → Str
  | some r => '[' :: r ++ [']']
  | none => []

/-- One line of a script file as `SCPList.save` writes it: `key path[:offset][range]`, then a newline. -/
def scriptLine (key path : Str) (offset range : Option Str) : Str :=
  key ++ ' ' :: path ++ offsetText offset ++ rangeText range ++ ['\n']

theorem strip_line {s : Str} (h0 : ∀ c ∈ s.head?, isSpace c = false) (h1 : ∀ c ∈ s.getLast?, isSpace c = false) :
    strip (s ++ ['\n']) = s := by
  have h := strip_id h0 h1
  unfold strip at h ⊢
  rw [rstrip_line h1]
  rwa [rstrip_id h1] at h

/-- A script specifier reads Kaldi archives exactly when the first entry of the script carries a byte offset, HDF5
files otherwise - whatever the key, the path, the offset and the row range are. -/
theorem C28_script_type (firstLine : Str → Option Str) (script key path : Str) (offset range : Option Str)
    (hl : firstLine script = some (scriptLine key path offset range))
    (hk : key ≠ []) (hks : ∀ c ∈ key, isSpace c = false)
    (hp : path ≠ []) (hps : ∀ c ∈ path, isSpace c = false ∧ c ≠ ':' ∧ c ≠ '[')
    (hos : ∀ o ∈ offset, o ≠ [] ∧ ∀ c ∈ o, isSpace c = false ∧ c ≠ ':' ∧ c ≠ '[')
    (hrs : ∀ r ∈ range, ∀ c ∈ r, isSpace c = false) :
    scriptArchiveType firstLine script = some (if offset.isSome then .ark else .h5) := by
  have hsp : isSpace ' ' = true := by decide
  obtain ⟨body, hbody⟩ : ∃ b : Str, b = path ++ offsetText offset := ⟨_, rfl⟩
  obtain ⟨tl, htl⟩ : ∃ b : Str, b = rangeText range := ⟨_, rfl⟩
  have hb1 : ∀ c ∈ body, isSpace c = false ∧ c ≠ '[' := by
    intro c hc
    rw [hbody] at hc
    rcases List.mem_append.1 hc with h | h
    · exact ⟨(hps c h).1, (hps c h).2.2⟩
    · cases offset with
      | none => simp [offsetText] at h
      | some o =>
        rcases List.mem_cons.1 h with rfl | h
        · decide
        · exact ⟨((hos o rfl).2 c h).1, ((hos o rfl).2 c h).2.2⟩
  have ht1 : ∀ c ∈ tl, isSpace c = false := by
    intro c hc
    rw [htl] at hc
    cases range with
    | none => simp [rangeText] at hc
    | some r =>
      simp only [rangeText, List.cons_append, List.mem_cons, List.mem_append, List.not_mem_nil, or_false] at hc
      rcases hc with rfl | hc | rfl
      · decide
      · exact hrs r rfl c hc
      · decide
  have hbne : body ≠ [] := by rw [hbody]; simp [hp]
  have hline : scriptLine key path offset range = (key ++ ' ' :: (body ++ tl)) ++ ['\n'] := by
    rw [hbody, htl]; simp [scriptLine, List.append_assoc]
  have hstrip : strip (scriptLine key path offset range) = key ++ ' ' :: (body ++ tl) := by
    rw [hline]
    apply strip_line
    · intro c hc
      cases key with
      | nil => exact absurd rfl hk
      | cons a l => simp at hc; subst hc; exact hks _ (by simp)
    · intro c hc
      have hm : c ∈ body ++ tl := by
        have h2 : (key ++ ' ' :: (body ++ tl)).getLast? = (body ++ tl).getLast? := by
          rw [List.getLast?_append, List.getLast?_cons]
          cases hh : (body ++ tl).getLast? with
          | none => rw [List.getLast?_eq_none_iff] at hh; simp [hbne] at hh
          | some x => simp
        rw [h2] at hc
        exact List.mem_of_getLast? hc
      rcases List.mem_append.1 hm with h | h
      · exact (hb1 c h).1
      · exact ht1 c h
  have hns : ∀ {s : Str}, (∀ c ∈ s, isSpace c = false) → ' ' ∉ s := by
    intro s h hm
    have := h _ hm
    rw [hsp] at this; cases this
  have hsplit : splitAll ' ' (strip (scriptLine key path offset range)) = [key, body ++ tl] := by
    rw [hstrip, splitAll_append (hns hks), splitAll_noSep]
    apply hns
    intro c hc
    rcases List.mem_append.1 hc with h | h
    · exact (hb1 c h).1
    · exact ht1 c h
  have hfst : (splitAll '[' (body ++ tl))[0]? = some body := by
    have hnb : '[' ∉ body := fun h => (hb1 _ h).2 rfl
    cases range with
    | none => simp only [htl, rangeText, List.append_nil]; rw [splitAll_noSep hnb]; rfl
    | some r => simp only [htl, rangeText, List.cons_append]; rw [splitAll_append hnb]; rfl
  have hpc : ':' ∉ path := fun h => (hps _ h).2.1 rfl
  have hlen : (splitAll ':' body).length = if offset.isSome then 2 else 1 := by
    cases offset with
    | none => simp only [hbody, offsetText, List.append_nil]; rw [splitAll_noSep hpc]; rfl
    | some o =>
      simp only [hbody, offsetText]
      rw [splitAll_append hpc, splitAll_noSep (fun h => ((hos o rfl).2 _ h).2.1 rfl)]; rfl
  simp only [scriptArchiveType, hl, Option.bind_eq_bind, Option.bind_some, hsplit, List.getElem?_cons_succ,
    List.getElem?_cons_zero, hfst, hlen]
  cases offset <;> rfl

example : scriptLine "utt1".toList "feats.ark".toList (some "15".toList) (some "0:3".toList) =
    "utt1 feats.ark:15[0:3]\n".toList := by decide

/-! ### examples -/

example : PathOk "dir/feats.ark".toList := by constructor <;> decide

example : wMeaning [.scp, .t, .ark, .f] ["x.scp".toList, "x.ark".toList] =
    some ⟨.both, some "x.ark".toList, some "x.scp".toList, some .ark, false, true, false⟩ := by decide

example : rMeaning (fun _ => some "utt1 /data/feats.ark:15[0:3]\n".toList) [.p, .scp, .cs] "x.scp".toList =
    some ⟨.script, "x.scp".toList, .ark, false, false, true, true, false⟩ := by decide

end Hyp.Spec
