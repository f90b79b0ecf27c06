import Verif.Text

/-! Model of /repo/hyperion/io/rw_specifiers.py: parsing of Kaldi style read and write specifiers. -/

namespace Hyp.Spec
open Hyp.Text

/-- `ArchiveType`, rw_specifiers.py:14-17. -/
inductive ArchiveType
  | h5 | ark
  deriving DecidableEq

/-- `WSpecType`, rw_specifiers.py:73-78 (without the unused `NO`). -/
inductive WSpecType
  | archive | script | both
  deriving DecidableEq

/-- `WSpecifier`, rw_specifiers.py:82-111. -/
structure WSpecifier where
  specType : WSpecType
  archive : Option Str
  script : Option Str
  archiveType : Option ArchiveType
  binary : Bool
  flush : Bool
  permissive : Bool
  deriving DecidableEq

/-- `str.strip()`. -/
def strip (s : Str) : Str := lstrip (rstrip s)

/-- the local variables of the loop, rw_specifiers.py:137-144. -/
structure WState where
  archive : Option Str
  script : Option Str
  archiveType : Option ArchiveType
  flush : Bool
  cur : Nat
  deriving DecidableEq

/-- rw_specifiers.py:147-162: an option `h5` or `ark` takes the next path; `none` = an assertion raises. -/
def WState.takeArchive (archives : List Str) (t : ArchiveType) (st : WState) : Option WState :=
  if st.archiveType = none ∧ st.archive = none then
    (archives[st.cur]?).map (fun a => { st with archiveType := some t, archive := some a, cur := st.cur + 1 })
  else none

/-- rw_specifiers.py:163-168: the option `scp` takes the next path. -/
def WState.takeScript (archives : List Str) (st : WState) : Option WState :=
  if st.script = none then
    (archives[st.cur]?).map (fun a => { st with script := some a, cur := st.cur + 1 })
  else none

/-- rw_specifiers.py:146-175: one option; `none` = exception. -/
def wStep (archives : List Str) (st : WState) (opt : Str) : Option WState :=
  if opt = ['h', '5'] then st.takeArchive archives .h5
  else if opt = ['a', 'r', 'k'] then st.takeArchive archives .ark
  else if opt = ['s', 'c', 'p'] then st.takeScript archives
  else if opt = ['f'] then some { st with flush := true }
  else if opt = ['b'] ∨ opt = ['t'] ∨ opt = ['n', 'f'] ∨ opt = ['p'] then some st
  else none

/-- rw_specifiers.py:177-187: the type of the specifier; `none` = `ValueError`. -/
def wType (st : WState) : Option WSpecType :=
  match st.archive, st.script with
  | none, none => none
  | none, some _ => some .script
  | some _, none => some .archive
  | some _, some _ => some .both

/-- rw_specifiers.py:134-196: a specifier with one `:`. -/
def wCreate2 (optField pathField : Str) : Option WSpecifier := do
  let options := splitAll ',' (strip optField)
  let archives := splitAll ',' (strip pathField)
  let st ← options.foldlM (wStep archives) ⟨none, none, none, false, 0⟩
  let ty ← wType st
  let isArk := decide (st.archiveType = some .ark)
  return ⟨ty, st.archive, st.script, st.archiveType, !(isArk && options.contains ['t']), st.flush,
    isArk && options.contains ['p']⟩

/-- rw_specifiers.py:116-199 `WSpecifier.create(wspecifier)`; `none` = exception. -/
def wCreate (s : Str) : Option WSpecifier :=
  match splitAll ':' (strip s) with
  | [f] => if f = [] then none else some ⟨.archive, some f, none, some .h5, true, false, false⟩
  | [f, g] => wCreate2 f g
  | _ => none

/-- `RSpecType`, rw_specifiers.py:269-272. -/
inductive RSpecType
  | archive | script
  deriving DecidableEq

/-- `RSpecifier`, rw_specifiers.py:275-294. -/
structure RSpecifier where
  specType : RSpecType
  archive : Str
  archiveType : ArchiveType
  once : Bool
  isSorted : Bool
  calledSorted : Bool
  permissive : Bool
  background : Bool
  deriving DecidableEq

/-- the local variables of the loop, rw_specifiers.py:308-315. -/
structure RState where
  kind : Option (RSpecType × Option ArchiveType)
  permissive : Bool
  deriving DecidableEq

/-- rw_specifiers.py:317-335: one option; `none` = exception. -/
def rStep (st : RState) (opt : Str) : Option RState :=
  if opt = ['h', '5'] then (if st.kind = none then some { st with kind := some (.archive, some .h5) } else none)
  else if opt = ['a', 'r', 'k'] then (if st.kind = none then some { st with kind := some (.archive, some .ark) } else none)
  else if opt = ['s', 'c', 'p'] then (if st.kind = none then some { st with kind := some (.script, none) } else none)
  else if opt = ['p'] then some { st with permissive := true }
  else if opt = ['o'] ∨ opt = ['s'] ∨ opt = ['c', 's'] ∨ opt = ['b', 'g'] then some st
  else none

/-- rw_specifiers.py:340-346: type of the data files of a script, from the first line of the script (the text up
to the first newline): `f.readline().strip().split(' ')[1].split('[')[0].split(':')`. `none` = the file cannot be
opened or the line has no second field. -/
def scriptArchiveType (firstLine : Str → Option Str) (path : Str) : Option ArchiveType := do
  let line ← firstLine path
  let fld ← (splitAll ' ' (strip line))[1]?
  let p ← (splitAll '[' fld)[0]?
  return if (splitAll ':' p).length = 1 then .h5 else .ark

/-- rw_specifiers.py:303-360: a specifier with one `:`. -/
def rCreate2 (firstLine : Str → Option Str) (optField pathField : Str) : Option RSpecifier := do
  let options := splitAll ',' (strip optField)
  match splitAll ',' (strip pathField) with
  | [archive] =>
    let st ← options.foldlM rStep ⟨none, false⟩
    let (ty, at0) ← st.kind
    let aty ← match at0 with
      | some a => some a
      | none => scriptArchiveType firstLine archive
    let ark := decide (aty = .ark)
    return ⟨ty, archive, aty, ark && options.contains ['o'], ark && options.contains ['s'],
      ark && options.contains ['c', 's'], st.permissive, ark && options.contains ['b', 'g']⟩
  | _ => none

/-- rw_specifiers.py:297-363 `RSpecifier.create(rspecifier)`; `none` = exception. -/
def rCreate (firstLine : Str → Option Str) (s : Str) : Option RSpecifier :=
  match splitAll ':' (strip s) with
  | [f] => if f = [] then none else some ⟨.archive, f, .h5, false, false, false, false, false⟩
  | [f, g] => rCreate2 firstLine f g
  | _ => none

end Hyp.Spec
