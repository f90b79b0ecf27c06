import Verif.Kaldi.Shapes
import Verif.Kaldi.BatchProps

/-! Property C167: shapes reported without reading the data (Kaldi archives and script files). -/

namespace Hyp.Kaldi
open Hyp.Text

/-! ### specification: a cursor over a list of records -/

/-- number of rows of an array: a vector is one row. -/
def Nd.height : Nd → Nat
  | .vec _ _ => 1
  | .mat _ _ rows => rows.length

/-- number of columns of an array. -/
def Nd.width : Nd → Nat
  | .vec _ els => els.length
  | .mat _ cols _ => cols

/-- the shape of an array, as Python returns it. -/
def Nd.pyShape : Nd → List Int
  | .vec _ els => [(els.length : Int)]
  | .mat _ cols rows => [(rows.length : Int), (cols : Int)]

/-- the next `k` records after the first `cur` ones; all of them for `k = 0`. -/
def batch (items : List (Str × Nd)) (cur k : Nat) : List (Str × Nd) :=
  if k = 0 then items.drop cur else (items.drop cur).take k

/-- all the arrays have the same number of columns. -/
def SameWidth (l : List (Str × Nd)) : Prop := ∀ p ∈ l, ∀ q ∈ l, p.2.width = q.2.width

instance (l : List (Str × Nd)) : Decidable (SameWidth l) := by unfold SameWidth; infer_instance

/-- the answer to a call for a reader that has given `cur` records. `script`: reader of a script file, whose
`read_shapes` and `read_num_rows` raise when there is nothing left and equal widths are asked for; `met`: the end of
the archive was met. -/
def answer (script : Bool) (items : List (Str × Nd)) (cur : Nat) (met : Bool) : Call → Ans
  | .read k => .data (batch items cur k)
  | .shapes k same =>
    if same = true ∧ (¬ SameWidth (batch items cur k) ∨ (script = true ∧ batch items cur k = [])) then .raised
    else .shapes ((batch items cur k).map (fun p => (p.1, p.2.pyShape)))
  | .numRows k same =>
    if same = true ∧ (¬ SameWidth (batch items cur k) ∨ (script = true ∧ batch items cur k = [])) then .raised
    else .nums ((batch items cur k).map (fun p => (p.1, (p.2.height : Int))))
  | .dims k same =>
    if same = true ∧ ¬ SameWidth (batch items cur k) then .raised
    else .nums ((batch items cur k).map (fun p => (p.1, (p.2.width : Int))))
  | .eof => .bool (if script then decide (cur = items.length) else met)
  | .reset => .unit

/-- the number of records given after a call: all four queries move alike. -/
def after (items : List (Str × Nd)) (cur : Nat) : Call → Nat
  | .read k | .shapes k _ | .numRows k _ | .dims k _ => cur + (batch items cur k).length
  | .eof => cur
  | .reset => 0

/-- whether the end of the archive was met: when fewer records came than asked for. -/
def metAfter (items : List (Str × Nd)) (cur : Nat) (met : Bool) : Call → Bool
  | .read k | .shapes k _ | .numRows k _ | .dims k _ => met || decide (k = 0 ∨ (batch items cur k).length < k)
  | .eof => met
  | .reset => false

/-- the answers to a sequence of calls. -/
def answers (script : Bool) (items : List (Str × Nd)) : Nat → Bool → List Call → List Ans
  | _, _, [] => []
  | cur, met, c :: cs => answer script items cur met c :: answers script items (after items cur c) (metAfter items cur met c) cs

/-! ### stored shapes -/

/-- the bytes `body` carry the shape of `v`. -/
def Shaped (v : Nd) (body : Bytes) : Prop :=
  ∀ (pk : Peek) (rest : Bytes), readShape pk true (body ++ rest) = some (v.shape, rest) ∧
    (readShape pk false (body ++ rest)).map (·.1) = some v.shape

theorem value_shaped {D : Decoder} {km : KMat} {v : Nd} (h : km.Value D v) {body : Bytes} (hb : km.write = some body) :
    Shaped v body := by
  have hcomp : ∀ a d, CmAttrs.WF a → cmBuild a = some d → cmWrite (some d) = some body →
      Shaped (.mat .f32 a.cols (a.codes.map (a.decodeRow D))) body := by
    intro a d hwf hd hw
    obtain ⟨out, ho, hr⟩ := C21_compressed_shape a hwf d hd
    obtain rfl : out = body := Option.some.inj (ho.symm.trans hw)
    intro pk rest
    have := hr pk rest
    simpa [Nd.shape] using this
  cases h with
  | plain _ hwf hdt hsz =>
    obtain ⟨out, ho, hr⟩ := C20_matrix_round_trip D v hwf hdt hsz
    obtain rfl : out = body := Option.some.inj (ho.symm.trans hb)
    exact fun pk rest => (hr pk true rest).2
  | comp a d hwf hd => exact hcomp a d hwf hd hb
  | empty =>
    have hwf : CmAttrs.WF ⟨1, [0, 0, 0, 0], [0, 0, 0, 0], some [], 0, []⟩ :=
      ⟨Or.inl rfl, rfl, rfl, by decide, by decide, by decide, by decide, by simp⟩
    refine hcomp _ ([1, 0, 0, 0] ++ List.replicate 16 0) hwf (by decide) ?_
    have : cmWrite none = some body := hb
    rw [← this]; decide

theorem pyShape_eq (v : Nd) : v.shape.map Int.ofNat = v.pyShape := by cases v <;> rfl

theorem shapeRecord_stored {D : Decoder} {v : Nd} {body : Bytes} (h : Shaped v body) (pk : Peek) (rest : Bytes) :
    shapeRecord pk D true (binMarker ++ body ++ rest) = some (v.pyShape, rest) ∧
    (shapeRecord pk D false (binMarker ++ body ++ rest)).map (·.1) = some v.pyShape := by
  obtain ⟨h1, h2⟩ := h pk rest
  unfold shapeRecord
  rw [List.append_assoc, C19_marker_round_trip]
  simp only [if_true]
  rw [h1]
  refine ⟨by simp [← pyShape_eq], ?_⟩
  obtain ⟨p, hp, hp1⟩ := Option.map_eq_some_iff.1 h2
  rw [hp]
  simp [← pyShape_eq, hp1]

/-- `bs` is a stored form of the sequence of records, with their shapes. -/
inductive EncS (D : Decoder) : List (Str × Nd) → Bytes → Prop
  | nil : EncS D [] []
  | cons {key t v body items bs} : key ≠ [] → writeToken key = some t → Stored D v body → Shaped v body →
      EncS D items bs → EncS D ((key, v) :: items) (t ++ (binMarker ++ body ++ bs))

theorem EncS.enc {D : Decoder} {items : List (Str × Nd)} {bs : Bytes} (h : EncS D items bs) : Enc D items bs := by
  induction h with
  | nil => exact .nil
  | cons h1 h2 h3 _ _ ih => exact .cons h1 h2 h3 ih

/-- the shape loop, and the read loop, on a stored archive: same keys, same position afterwards. -/
theorem arkShapeLoop_enc {D : Decoder} {items : List (Str × Nd)} {bs : Bytes} (h : EncS D items bs) (pk : Peek)
    (fuel : Nat) (hf : items.length < fuel) (limit : Option Nat) (binary : Bool) :
    ∃ bs', arkShapeLoop pk D fuel limit binary bs =
        some ((items.take (limit.getD items.length)).map (fun it => (it.1, it.2.pyShape)), bs',
          match limit with | none => true | some k => decide (items.length < k)) ∧
      arkLoop pk D id 0 0 fuel limit binary bs =
        some (items.take (limit.getD items.length), bs',
          match limit with | none => true | some k => decide (items.length < k)) ∧
      EncS D (items.drop (limit.getD items.length)) bs' := by
  induction h generalizing fuel limit binary with
  | nil =>
    obtain ⟨f, rfl⟩ : ∃ f, fuel = f + 1 := ⟨fuel - 1, by simp at hf; omega⟩
    refine ⟨[], ?_, ?_, by simpa using EncS.nil⟩
    · unfold arkShapeLoop
      rw [readToken_nil]
      cases limit with
      | none => simp
      | some k => cases k <;> simp
    · unfold arkLoop
      rw [readToken_nil]
      cases limit with
      | none => simp
      | some k => cases k <;> simp
  | @cons key t v body items bs hk ht hs hsh henc ih =>
    obtain ⟨f, rfl⟩ : ∃ f, fuel = f + 1 := ⟨fuel - 1, by simp at hf; omega⟩
    simp only [List.length_cons] at hf
    by_cases hl : limit = some 0
    · subst hl
      refine ⟨_, ?_, ?_, by simpa using EncS.cons hk ht hs hsh henc⟩
      · unfold arkShapeLoop
        simp
      · unfold arkLoop
        simp
    · obtain ⟨bs', h1, h1', h2⟩ := ih f (by omega)
        (limit.map (· - 1)) (initInput pk (binMarker ++ body ++ bs)).1
      unfold arkShapeLoop arkLoop
      rw [if_neg hl, if_neg hl, readToken_writeToken pk binary hk ht]
      simp only [hk, if_false]
      rw [(shapeRecord_stored hsh pk bs).1, (readRecord_stored hs pk id (Nd.rangeOk_zero v) bs).1]
      simp only
      rw [h1, h1']
      cases limit with
      | none =>
        exact ⟨bs', by simp, by simp [Nd.slice_zero], by simpa using h2⟩
      | some k =>
        obtain ⟨k, rfl⟩ : ∃ j, k = j + 1 := ⟨k - 1, by
          have : k ≠ 0 := fun e => hl (by rw [e])
          omega⟩
        exact ⟨bs', by simp, by simp [Nd.slice_zero], by simpa using h2⟩

theorem dimsAgree_map (l : List (Str × Nd)) :
    dimsAgree ((l.map (fun p => (p.1, p.2.pyShape))).map (·.2)) = decide (l ≠ [] ∧ SameWidth l) := by
  have hlast : ∀ v : Nd, v.pyShape.getLast? = some (v.width : Int) := by intro v; cases v <;> rfl
  cases l with
  | nil => simp [dimsAgree]
  | cons p l =>
    rw [Bool.eq_iff_iff]
    simp only [List.map_cons, dimsAgree, hlast, Option.isSome_some, Bool.true_and, List.all_eq_true, decide_eq_true_eq,
      Option.some.injEq]
    constructor
    · intro h
      have h' : ∀ q ∈ p :: l, q.2.width = p.2.width := by
        intro q hq
        rcases List.mem_cons.1 hq with rfl | hq
        · rfl
        · have := h q.2.pyShape (List.mem_map.2 ⟨(q.1, q.2.pyShape), List.mem_map.2 ⟨q, hq, rfl⟩, rfl⟩)
          rw [hlast] at this
          simpa using this
      exact ⟨by simp, fun a ha b hb => (h' a ha).trans (h' b hb).symm⟩
    · rintro ⟨-, h⟩ x hx
      obtain ⟨y, hy, rfl⟩ := List.mem_map.1 hx
      obtain ⟨q, hq, rfl⟩ := List.mem_map.1 hy
      simp only [hlast, Option.some.injEq, Int.natCast_inj]
      exact h q (List.mem_cons_of_mem _ hq) p (by simp)

theorem rowsOfShape_py (v : Nd) : rowsOfShape v.pyShape = (v.height : Int) := by cases v <;> rfl

theorem sameWidth_nil : SameWidth [] := by intro p hp; simp at hp

theorem arkCheck_map (same : Bool) (l : List (Str × Nd)) :
    arkCheck same (l.map (fun p => (p.1, p.2.pyShape))) =
      if same = true ∧ ¬ SameWidth l then none else some (l.map (fun p => (p.1, p.2.pyShape))) := by
  unfold arkCheck
  rw [dimsAgree_map]
  cases same with
  | false => simp
  | true =>
    by_cases hl : l = []
    · subst hl; simp [sameWidth_nil]
    · by_cases hs : SameWidth l
      · simp [hs, hl]
      · have : 0 < l.length := List.length_pos_iff.2 hl
        simp [hs, hl]

theorem scpCheck_map (same : Bool) (l : List (Str × Nd)) :
    scpCheck same (l.map (fun p => (p.1, p.2.pyShape))) =
      if same = true ∧ (¬ SameWidth l ∨ l = []) then none else some (l.map (fun p => (p.1, p.2.pyShape))) := by
  unfold scpCheck
  rw [dimsAgree_map]
  cases same with
  | false => simp
  | true =>
    by_cases hl : l = []
    · subst hl; simp
    · by_cases hs : SameWidth l <;> simp [hs, hl]

theorem seqDimsOf_map (same : Bool) (l : List (Str × Nd)) :
    seqDimsOf same (l.map (fun p => (p.1, p.2.pyShape))) =
      if same = true ∧ ¬ SameWidth l then none else some (l.map (fun p => (p.1, (p.2.width : Int)))) := by
  have hlast : ∀ v : Nd, v.pyShape.getLast? = some (v.width : Int) := by intro v; cases v <;> rfl
  unfold seqDimsOf
  rw [dimsAgree_map, List.mapM_map]
  have hm : l.mapM ((fun x : Str × List Int => x.2.getLast?.map (fun d => (x.1, d))) ∘ (fun p : Str × Nd => (p.1, p.2.pyShape)))
      = some (l.map (fun p => (p.1, (p.2.width : Int)))) :=
    mapM_eq_some_map (fun p _ => by simp [hlast])
  cases same with
  | false => simpa using hm
  | true =>
    by_cases hl : l = []
    · subst hl; simp [sameWidth_nil]
    · by_cases hs : SameWidth l
      · simp only [hs, not_true_eq_false, and_false, if_false]
        rw [if_neg (by simp [hl])]
        exact hm
      · have : 0 < l.length := List.length_pos_iff.2 hl
        simp [hs, hl]

/-! ### readers of archives -/

/-- the state of a reader of the archive of `items` after `cur` records. -/
structure ArkAt (D : Decoder) (items : List (Str × Nd)) (cur : Nat) (met : Bool) (r : ArkReader) : Prop where
  content : EncS D items r.content
  rest : EncS D (items.drop cur) r.rest
  eof : r.eof = met

theorem batch_take (items : List (Str × Nd)) (cur k : Nat) :
    (items.drop cur).take ((if k = 0 then none else some k : Option Nat).getD (items.drop cur).length) = batch items cur k := by
  unfold batch
  by_cases hk : k = 0
  · subst hk; simp [List.take_of_length_le]
  · simp [hk]

theorem batch_drop (items : List (Str × Nd)) (cur k : Nat) :
    (items.drop cur).drop ((if k = 0 then none else some k : Option Nat).getD (items.drop cur).length) =
      items.drop (cur + (batch items cur k).length) := by
  unfold batch
  by_cases hk : k = 0
  · subst hk; simp [List.drop_drop]
  · simp only [hk, if_false, Option.getD_some, List.drop_drop, List.length_take, List.length_drop]
    by_cases h : k ≤ items.length - cur
    · rw [Nat.min_eq_left h]
    · rw [Nat.min_eq_right (by omega), List.drop_eq_nil_of_le (by omega), List.drop_eq_nil_of_le (by omega)]

theorem batch_met (items : List (Str × Nd)) (cur k : Nat) :
    (match (if k = 0 then none else some k : Option Nat) with
      | none => true | some k => decide ((items.drop cur).length < k)) =
      decide (k = 0 ∨ (batch items cur k).length < k) := by
  unfold batch
  by_cases hk : k = 0
  · subst hk; simp
  · simp only [hk, if_false, false_or, List.length_take]
    congr 1
    simp only [List.length_drop, eq_iff_iff]
    omega

theorem ark_both {D : Decoder} {items : List (Str × Nd)} {cur : Nat} {met : Bool} {r : ArkReader}
    (h : ArkAt D items cur met r) (pk : Peek) (k : Nat) :
    ∃ r', r.read pk D id k 0 0 = some (batch items cur k, r') ∧
      (∀ same, r.readShapes pk D k same = some
        (if same = true ∧ ¬ SameWidth (batch items cur k) then none
          else some ((batch items cur k).map (fun p => (p.1, p.2.pyShape))), r')) ∧
      ArkAt D items (cur + (batch items cur k).length) (met || decide (k = 0 ∨ (batch items cur k).length < k)) r' := by
  have hlen := h.rest.enc.length
  obtain ⟨bs', h1, h1', h2⟩ := arkShapeLoop_enc h.rest pk (r.rest.length + 1) (by omega)
    (if k = 0 then none else some k) false
  rw [batch_take, batch_met] at h1 h1'
  rw [batch_drop] at h2
  refine ⟨⟨r.content, bs', r.eof || decide (k = 0 ∨ (batch items cur k).length < k)⟩, ?_, fun same => ?_,
    ⟨h.content, h2, by rw [h.eof]⟩⟩
  · unfold ArkReader.read
    rw [h1']
  · unfold ArkReader.readShapes
    rw [h1]
    simp only [arkCheck_map]

theorem ark_call {D : Decoder} {items : List (Str × Nd)} {cur : Nat} {met : Bool} {r : ArkReader}
    (h : ArkAt D items cur met r) (pk : Peek) (c : Call) :
    ∃ r', r.call pk D c = some (answer false items cur met c, r') ∧
      ArkAt D items (after items cur c) (metAfter items cur met c) r' := by
  cases c with
  | read k =>
    obtain ⟨r', h1, _, h3⟩ := ark_both h pk k
    exact ⟨r', by simp [ArkReader.call, h1, answer], h3⟩
  | shapes k same =>
    obtain ⟨r', _, h2, h3⟩ := ark_both h pk k
    refine ⟨r', ?_, h3⟩
    simp only [ArkReader.call, h2, Option.map_some, answer, Bool.false_eq_true, false_and, or_false]
    split <;> rfl
  | numRows k same =>
    obtain ⟨r', _, h2, h3⟩ := ark_both h pk k
    refine ⟨r', ?_, h3⟩
    simp only [ArkReader.call, seqNumRows, h2, Option.map_some, answer, Bool.false_eq_true, false_and, or_false]
    split
    · rfl
    · simp [ansOf, Function.comp_def, rowsOfShape_py]
  | dims k same =>
    obtain ⟨r', _, h2, h3⟩ := ark_both h pk k
    refine ⟨r', ?_, h3⟩
    simp only [ArkReader.call, seqDims, h2, Option.map_some, answer, Bool.false_eq_true, false_and, if_false,
      Option.bind_some, seqDimsOf_map]
    split <;> rfl
  | eof => exact ⟨r, by simp [ArkReader.call, answer, h.eof], h⟩
  | reset => exact ⟨r.reset, rfl, ⟨h.content, h.content, rfl⟩⟩

theorem ark_calls {D : Decoder} {items : List (Str × Nd)} (pk : Peek) (cs : List Call) (cur : Nat) (met : Bool)
    (r : ArkReader) (h : ArkAt D items cur met r) :
    calls (ArkReader.call pk D) r cs = some (answers false items cur met cs) := by
  induction cs generalizing r cur met with
  | nil => rfl
  | cons c cs ih =>
    obtain ⟨r', h1, h2⟩ := ark_call h pk c
    unfold calls
    rw [h1]
    simp only
    rw [ih _ _ r' h2]
    rfl

/-! ### what the writer leaves on disk -/

/-- entry `o` of an archive is a stored form of `v`, with its shape. -/
def AtS (D : Decoder) (ark : Bytes) (o : Nat) (v : Nd) : Prop :=
  ∃ pre body post, ark = pre ++ (binMarker ++ body ++ post) ∧ pre.length = o ∧ 0 < o ∧ Stored D v body ∧ Shaped v body

theorem AtS.at {D : Decoder} {ark : Bytes} {o : Nat} {v : Nd} (h : AtS D ark o v) : At D ark o v := by
  obtain ⟨a, b, c, h1, h2, h3, h4, _⟩ := h
  exact ⟨a, b, c, h1, h2, h3, h4⟩

theorem write_specS {D : Decoder} (sep : Char) (path : Str) (items : List (Str × KMat × Nd))
    (hk : ∀ it ∈ items, isToken it.1 = true) (hv : ∀ it ∈ items, it.2.1.Value D it.2.2) (w : ArkWriter) :
    ∃ w' bs offs, w.write sep path (items.map (fun it => (it.1, it.2.1))) = some w' ∧ w'.ark = w.ark ++ bs ∧
      EncS D (items.map (fun it => (it.1, it.2.2))) bs ∧
      w'.script = w.script ++ (items.zip offs).flatMap (fun p => scriptLine sep path p.1.1 p.2) ∧
      List.Forall₂ (fun it o => AtS D w'.ark o it.2.2) items offs := by
  induction items generalizing w with
  | nil => exact ⟨w, [], [], rfl, by simp, EncS.nil, by simp, List.Forall₂.nil⟩
  | cons it items ih =>
    obtain ⟨hne, _, _, t, ht⟩ := isToken_writeToken (hk it (by simp))
    obtain ⟨body, hb, hs⟩ := value_stored (hv it (by simp))
    have hsh := value_shaped (hv it (by simp)) hb
    have h1 : w.writeOne sep path (it.1, it.2.1) =
        some ⟨w.ark ++ t ++ binMarker ++ body, w.script ++ scriptLine sep path it.1 (w.ark ++ t).length⟩ := by
      unfold ArkWriter.writeOne
      simp only [hk it (by simp), if_true, ht, hb, Option.bind_eq_bind, Option.bind_some]
      rfl
    obtain ⟨w', bs, offs, hw, ha, henc, hsc, hat⟩ := ih (fun x hx => hk x (List.mem_cons_of_mem _ hx))
      (fun x hx => hv x (List.mem_cons_of_mem _ hx))
      ⟨w.ark ++ t ++ binMarker ++ body, w.script ++ scriptLine sep path it.1 (w.ark ++ t).length⟩
    refine ⟨w', t ++ (binMarker ++ body ++ bs), (w.ark ++ t).length :: offs, ?_, ?_, ?_, ?_, ?_⟩
    · unfold ArkWriter.write at hw ⊢
      rw [List.map_cons, List.foldlM_cons, h1]
      exact hw
    · rw [ha]; simp
    · exact EncS.cons hne ht hs hsh henc
    · rw [hsc]; simp
    · refine List.Forall₂.cons ⟨w.ark ++ t, body, bs, by rw [ha]; simp, rfl, ?_, hs, hsh⟩ hat
      obtain ⟨e, rfl, _, _⟩ := writeToken_eq ht
      simp

/-! ## C167 -/

/-- Any history of `read`, `read_shapes`, `read_num_rows`, `read_dims`, `eof` and `reset` calls on a written archive
gets the answers of a cursor over the written records: a query reports, for the records that `read` would return at
that point, their shapes, numbers of rows (1 for a vector) and numbers of columns, and moves as `read` does. With
`assert_same_dim` it raises iff two of those records have different numbers of columns. -/
theorem C167_archive (D : Decoder) (sep : Char) (path : Str) (items : List (Str × KMat × Nd))
    (hk : ∀ it ∈ items, isToken it.1 = true) (hv : ∀ it ∈ items, it.2.1.Value D it.2.2) :
    ∃ w, (ArkWriter.mk [] []).write sep path (items.map (fun it => (it.1, it.2.1))) = some w ∧
      ∀ (pk : Peek) (cs : List Call), calls (ArkReader.call pk D) (ArkReader.open w.ark) cs =
        some (answers false (items.map (fun it => (it.1, it.2.2))) 0 false cs) := by
  obtain ⟨w, bs, offs, hw, ha, henc, _, _⟩ := write_specS sep path items hk hv ⟨[], []⟩
  refine ⟨w, hw, fun pk cs => ?_⟩
  have ha : w.ark = bs := by simpa using ha
  exact ark_calls pk cs 0 false _ ⟨by rw [show (ArkReader.open w.ark).content = bs from ha]; exact henc,
    by rw [show (ArkReader.open w.ark).rest = bs from ha]; exact henc, rfl⟩

/-! ### script files -/

/-- what a script entry with this range shows of the stored array. -/
inductive Part : Option (Nat × Int) → Nd → Nd → Prop
  | whole (v : Nd) : Part none v v
  | rows (a n : Nat) (v : Nd) : v.RangeOk a n → Part (some (a, (n : Int))) v (v.slice a n)

/-- a script list through which the records `items` can be read: entry `i` has the key of item `i`; the file it names
has, at the offset of the entry, an array of which the range of the entry shows the array of item `i`. -/
def ScpHas (D : Decoder) (fs : Files) (x : Scp.Scp Str Str) (items : List (Str × Nd)) : Prop :=
  x.key.length = items.length ∧
  ∀ i (h : i < items.length), ∃ path o ark range v, x.getByPos i = some (items[i].1, path, some o, range) ∧
    fs path = some ark ∧ AtS D ark o v ∧ Part range v items[i].2

theorem applyRange_slice {v : Nd} {o k : Nat} (h : v.RangeOk o k) :
    applyRangeToShape v.pyShape o (k : Int) = some (v.slice o k).pyShape := by
  cases v with
  | vec dt els =>
    obtain ⟨rfl, hk⟩ := h
    rcases hk with rfl | rfl
    · rfl
    · unfold applyRangeToShape
      by_cases hl : els.length = 0
      · rw [if_neg (by omega)]; rfl
      · rw [if_pos (by omega)]
        simp only [Nd.pyShape, Nd.slice]
        rw [if_pos (by omega), if_pos (by omega)]
  | mat dt cols rows =>
    have hin : o + k ≤ rows.length := h
    have := C24_shape_agrees none rows.length cols 0 0 rfl (by omega) dt rows rfl
    unfold applyRangeToShape
    by_cases hk : k = 0
    · subst hk
      by_cases ho : o = 0
      · simp [ho, Nd.slice, Nd.pyShape]
      · rw [if_pos (by left; omega)]
        simp [Nd.slice, Nd.pyShape]; omega
    · rw [if_pos (by right; omega)]
      simp only [Nd.pyShape]
      rw [if_pos (by omega), if_pos (by omega)]
      simp [Nd.slice, hk]; omega

theorem Part.spec {range : Option (Nat × Int)} {v u : Nd} (h : Part range v u) :
    ∃ o k : Nat, combineRanges range 0 0 = some (o, (k : Int)) ∧ v.RangeOk o k ∧ u = v.slice o k := by
  cases h with
  | whole => exact ⟨0, 0, rfl, Nd.rangeOk_zero _, (Nd.slice_zero _).symm⟩
  | rows a n _ hr => exact ⟨a, n, by simp [combineRanges], hr, rfl⟩

theorem shapeRecord_at {D : Decoder} {ark : Bytes} {o : Nat} {v : Nd} (h : AtS D ark o v) (pk : Peek) :
    (∃ s, shapeRecord pk D true (ark.drop o) = some (v.pyShape, s)) ∧
    (shapeRecord pk D false (ark.drop o)).map (·.1) = some v.pyShape := by
  obtain ⟨pre, body, post, rfl, rfl, _, _, hs⟩ := h
  rw [List.drop_left' rfl]
  obtain ⟨h1, h2⟩ := shapeRecord_stored (D := D) hs pk post
  exact ⟨⟨_, h1⟩, h2⟩

/-- the state of a reader of a script file after `cur` records. -/
structure ScpAt (fs : Files) (x : Scp.Scp Str Str) (n cur : Nat) (r : ScpReader) : Prop where
  list : r.scp = x
  pos : r.cur = cur
  opened : OpenOk fs r.opened
  le : cur ≤ n

theorem scp_one {D : Decoder} {fs : Files} {x : Scp.Scp Str Str} {items : List (Str × Nd)} (hok : ScpHas D fs x items)
    {cur : Nat} {r : ScpReader} (h : ScpAt fs x items.length cur r) (hlt : cur < items.length) (pk : Peek) :
    (∃ r', r.readOne pk D id fs 0 0 = some (items[cur], r') ∧ ScpAt fs x items.length (cur + 1) r') ∧
    (∃ r', r.shapeOne pk D fs = some ((items[cur].1, items[cur].2.pyShape), r') ∧ ScpAt fs x items.length (cur + 1) r') := by
  obtain ⟨path, o, ark, range, v, hpos, hf, hat, hpart⟩ := hok.2 cur hlt
  obtain ⟨a, k, hc, hr, hu⟩ := hpart.spec
  have ho : 0 < o := by obtain ⟨_, _, _, _, _, h, _⟩ := hat; exact h
  have hpos' : r.scp.getByPos r.cur = some (items[cur].1, path, some o, range) := by rw [h.list, h.pos]; exact hpos
  constructor
  · obtain ⟨r', h1, h2, h3, h4⟩ := readOne_ok h.opened hpos' hf hat.at pk id (off := 0) (n := 0) hc hr
    refine ⟨r', ?_, ⟨by rw [h2, h.list], by rw [h3, h.pos], h4, hlt⟩⟩
    rw [h1, hu.symm]
    rfl
  · obtain ⟨s, hs⟩ := (shapeRecord_at hat pk).1
    unfold ScpReader.shapeOne
    rw [hpos']
    simp only [Option.bind_eq_bind, Option.bind_some, hc, openArchive_ok h.opened hf ho, hs, applyRange_slice hr, ← hu]
    exact ⟨_, rfl, ⟨h.list, by simp [h.pos], hf, hlt⟩⟩

theorem scp_loops {D : Decoder} {fs : Files} {x : Scp.Scp Str Str} {items : List (Str × Nd)} (hok : ScpHas D fs x items)
    (pk : Peek) (k : Nat) :
    (∀ cur r, ScpAt fs x items.length cur r → ∃ r', scpLoop pk D id fs 0 0 k r = some ((items.drop cur).take k, r') ∧
      ScpAt fs x items.length (cur + ((items.drop cur).take k).length) r') ∧
    (∀ cur r, ScpAt fs x items.length cur r → ∃ r', scpShapeLoop pk D fs k r =
        some (((items.drop cur).take k).map (fun p => (p.1, p.2.pyShape)), r') ∧
      ScpAt fs x items.length (cur + ((items.drop cur).take k).length) r') := by
  induction k with
  | zero =>
    exact ⟨fun cur r h => ⟨r, by simp [scpLoop], by simpa using h⟩,
      fun cur r h => ⟨r, by simp [scpShapeLoop], by simpa using h⟩⟩
  | succ k ih =>
    constructor
    · intro cur r h
      unfold scpLoop
      by_cases hend : cur = items.length
      · rw [if_pos (by rw [h.pos, h.list, hok.1, hend])]
        exact ⟨r, by simp [hend], by simpa [hend] using (hend ▸ h)⟩
      · rw [if_neg (by rw [h.pos, h.list, hok.1]; exact hend)]
        have hlt : cur < items.length := by have := h.le; omega
        obtain ⟨r1, h1, h2⟩ := (scp_one hok h hlt pk).1
        obtain ⟨r2, g1, g2⟩ := ih.1 _ r1 h2
        rw [h1]
        simp only
        rw [g1]
        refine ⟨r2, by rw [List.drop_eq_getElem_cons hlt, List.take_succ_cons], ?_⟩
        rw [List.drop_eq_getElem_cons hlt, List.take_succ_cons, List.length_cons]
        have e : cur + (((items.drop (cur + 1)).take k).length + 1) = cur + 1 + ((items.drop (cur + 1)).take k).length := by omega
        rw [e]; exact g2
    · intro cur r h
      unfold scpShapeLoop
      by_cases hend : cur = items.length
      · rw [if_pos (by rw [h.pos, h.list, hok.1, hend])]
        exact ⟨r, by simp [hend], by simpa [hend] using (hend ▸ h)⟩
      · rw [if_neg (by rw [h.pos, h.list, hok.1]; exact hend)]
        have hlt : cur < items.length := by have := h.le; omega
        obtain ⟨r1, h1, h2⟩ := (scp_one hok h hlt pk).2
        obtain ⟨r2, g1, g2⟩ := ih.2 _ r1 h2
        rw [h1]
        simp only
        rw [g1]
        refine ⟨r2, by rw [List.drop_eq_getElem_cons hlt, List.take_succ_cons, List.map_cons], ?_⟩
        rw [List.drop_eq_getElem_cons hlt, List.take_succ_cons, List.length_cons]
        have e : cur + (((items.drop (cur + 1)).take k).length + 1) = cur + 1 + ((items.drop (cur + 1)).take k).length := by omega
        rw [e]; exact g2

theorem batch_scp (items : List (Str × Nd)) (cur k : Nat) :
    (items.drop cur).take (if k = 0 then items.length - cur else k) = batch items cur k := by
  unfold batch
  by_cases hk : k = 0
  · subst hk; simp [List.take_of_length_le]
  · simp [hk]

theorem scp_both {D : Decoder} {fs : Files} {x : Scp.Scp Str Str} {items : List (Str × Nd)} (hok : ScpHas D fs x items)
    {cur : Nat} {r : ScpReader} (h : ScpAt fs x items.length cur r) (pk : Peek) (k : Nat) :
    (∃ r', r.read pk D id fs k 0 0 = some (batch items cur k, r') ∧
      ScpAt fs x items.length (cur + (batch items cur k).length) r') ∧
    (∃ r', (∀ same, r.readShapes pk D fs k same = some
        (if same = true ∧ (¬ SameWidth (batch items cur k) ∨ batch items cur k = []) then none
          else some ((batch items cur k).map (fun p => (p.1, p.2.pyShape))), r')) ∧
      ScpAt fs x items.length (cur + (batch items cur k).length) r') := by
  have hl := scp_loops hok pk (if k = 0 then items.length - cur else k)
  have hn : (if k = 0 then r.scp.key.length - r.cur else k) = (if k = 0 then items.length - cur else k) := by
    rw [h.list, h.pos, hok.1]
  constructor
  · obtain ⟨r', h1, h2⟩ := hl.1 cur r h
    rw [batch_scp] at h1 h2
    exact ⟨r', by unfold ScpReader.read; rw [hn, h1], h2⟩
  · obtain ⟨r', h1, h2⟩ := hl.2 cur r h
    rw [batch_scp] at h1 h2
    refine ⟨r', fun same => ?_, h2⟩
    unfold ScpReader.readShapes
    rw [hn, h1]
    simp only [Option.map_some, scpCheck_map]

theorem scp_call {D : Decoder} {fs : Files} {x : Scp.Scp Str Str} {items : List (Str × Nd)} (hok : ScpHas D fs x items)
    {cur : Nat} {r : ScpReader} (h : ScpAt fs x items.length cur r) (pk : Peek) (met : Bool) (c : Call) :
    ∃ r', r.call pk D fs c = some (answer true items cur met c, r') ∧ ScpAt fs x items.length (after items cur c) r' := by
  cases c with
  | read k =>
    obtain ⟨r', h1, h3⟩ := (scp_both hok h pk k).1
    exact ⟨r', by simp [ScpReader.call, h1, answer], h3⟩
  | shapes k same =>
    obtain ⟨r', h2, h3⟩ := (scp_both hok h pk k).2
    refine ⟨r', ?_, h3⟩
    simp only [ScpReader.call, h2, Option.map_some, answer, true_and]
    split <;> rfl
  | numRows k same =>
    obtain ⟨r', h2, h3⟩ := (scp_both hok h pk k).2
    refine ⟨r', ?_, h3⟩
    simp only [ScpReader.call, seqNumRows, h2, Option.map_some, answer, true_and]
    split
    · rfl
    · simp [ansOf, Function.comp_def, rowsOfShape_py]
  | dims k same =>
    obtain ⟨r', h2, h3⟩ := (scp_both hok h pk k).2
    refine ⟨r', ?_, h3⟩
    simp only [ScpReader.call, seqDims, h2, Option.map_some, answer, Bool.false_eq_true, false_and, if_false,
      Option.bind_some, seqDimsOf_map]
    split <;> rfl
  | eof =>
    refine ⟨r, ?_, h⟩
    simp only [ScpReader.call, answer, if_true, ScpReader.eof]
    rw [h.pos, h.list, hok.1]
  | reset => exact ⟨r.reset, rfl, ⟨h.list, rfl, trivial, Nat.zero_le _⟩⟩

/-- The same for a reader of a script file - any list, with several archives and row ranges, whichever archive is
open: the shapes are those of the ranges of the entries. Here `read_shapes` and `read_num_rows` with `assert_same_dim`
raise also when no record is left. -/
theorem C167_script_partial (D : Decoder) (fs : Files) (x : Scp.Scp Str Str) (items : List (Str × Nd))
    (hok : ScpHas D fs x items) (pk : Peek) (cs : List Call) :
    calls (ScpReader.call pk D fs) ⟨x, 0, none⟩ cs = some (answers true items 0 false cs) := by
  have h0 : ScpAt fs x items.length 0 (ScpReader.mk x 0 none) := ⟨rfl, rfl, trivial, Nat.zero_le _⟩
  have key : ∀ (cs : List Call) (cur : Nat) (met : Bool) (r : ScpReader), ScpAt fs x items.length cur r →
      calls (ScpReader.call pk D fs) r cs = some (answers true items cur met cs) := by
    intro cs
    induction cs with
    | nil => intros; rfl
    | cons c cs ih =>
      intro cur met r h
      obtain ⟨r', h1, h2⟩ := scp_call hok h pk met c
      unfold calls
      rw [h1]
      simp only
      rw [ih _ (metAfter items cur met c) r' h2]
      rfl
  exact key cs 0 false _ h0

/-! ### random access -/

/-- the array of a key: the one of the record with that key; for a key that is not there an empty vector in permissive
mode, otherwise an exception. -/
def lookup (items : List (Str × Nd)) (permissive : Bool) (key : Str) : Option Nd :=
  match items.find? (fun p => decide (p.1 = key)) with
  | some p => some p.2
  | none => if permissive then some (.vec .f32 []) else none

theorem random_one {D : Decoder} {fs : Files} {x : Scp.Scp Str Str} (hcache : x.cache = none) {items : List (Str × Nd)}
    (hok : ScpHas D fs x items) (hkeys : x.key = items.map (·.1)) (hnd : (items.map (·.1)).Nodup) (pk : Peek)
    (permissive : Bool) (key : Str) :
    randomReadOne pk D id fs x permissive 0 0 key = lookup items permissive key ∧
    randomShapeOne pk D fs x permissive key = (lookup items permissive key).map Nd.pyShape := by
  unfold lookup
  cases hfind : items.find? (fun p => decide (p.1 = key)) with
  | none =>
    have hno : key ∉ x.key := by
      rw [hkeys]
      intro hmem
      obtain ⟨p, hp, rfl⟩ := List.mem_map.1 hmem
      have := List.find?_eq_none.1 hfind p hp
      simp at this
    have hco : (x.contains key).1 = false := by
      unfold Scp.Scp.contains; rw [hcache]
      simp [enumDict_get_not_mem hno]
    unfold randomReadOne randomShapeOne
    simp only [hco]
    cases permissive <;> simp [Nd.pyShape]
  | some p =>
    have hp1 : p.1 = key := by simpa using List.find?_some hfind
    obtain ⟨i, hi, hieq⟩ := List.mem_iff_getElem.1 (List.mem_of_find?_eq_some hfind)
    have hidx : dictGet (enumDict x.key) key = some i := by
      have hk' : x.key[i]? = some key := by
        rw [hkeys, List.getElem?_map, List.getElem?_eq_getElem hi, hieq]; simp [hp1]
      exact enumDict_get_nodup (by rw [hkeys]; exact hnd) hk'
    have hgi : (x.getIndex key).1 = some i := by
      unfold Scp.Scp.getIndex; rw [hcache]; exact hidx
    have hco : (x.contains key).1 = true := by
      unfold Scp.Scp.contains; rw [hcache]; simp [hidx]
    obtain ⟨path, o, ark, range, v, hpos, hf, hat, hpart⟩ := hok.2 i hi
    obtain ⟨a, k, hc, hr, hu⟩ := hpart.spec
    rw [hieq] at hu
    constructor
    · unfold randomReadOne
      rw [if_pos hco, hgi]
      simp only [Option.bind_eq_bind, Option.bind_some, hpos, hc, hf, natOf_nat]
      obtain ⟨q, hq1, hq2⟩ := Option.map_eq_some_iff.1 (readRecord_at hat.at pk id hr).2
      rw [hq1]
      simp only [Option.bind_some, hq2, hu]
      rfl
    · unfold randomShapeOne
      rw [if_pos hco, hgi]
      simp only [Option.bind_eq_bind, Option.bind_some, hpos, hc, hf]
      obtain ⟨q, hq1, hq2⟩ := Option.map_eq_some_iff.1 (shapeRecord_at hat pk).2
      rw [hq1]
      simp only [Option.bind_some, hq2, applyRange_slice hr, hu, Option.map_some]

theorem mapM_map_some {α β γ : Type} (f : α → Option β) (g : β → γ) (l : List α) :
    l.mapM (fun a : α => (f a).map g) = (l.mapM f).map (fun bs => bs.map g) := by
  induction l with
  | nil => rfl
  | cons a l ih =>
    simp only [List.mapM_cons, Option.bind_eq_bind, ih]
    cases f a with
    | none => rfl
    | some b => cases l.mapM f <;> rfl

/-- Random access through any script list with distinct keys: the arrays of the requested keys, and from the queries
their shapes, rows (1 for a vector and for a missing key) and columns; with `assert_same_dim` the three queries raise
iff two of the arrays have different numbers of columns or no key was requested. -/
theorem C167_random (D : Decoder) (fs : Files) (x : Scp.Scp Str Str) (hcache : x.cache = none) (items : List (Str × Nd))
    (hok : ScpHas D fs x items) (hkeys : x.key = items.map (·.1)) (hnd : (items.map (·.1)).Nodup) (pk : Peek)
    (permissive same : Bool) (keys : List Str) :
    randomRead pk D id fs x permissive 0 0 keys = keys.mapM (fun k : Str => lookup items permissive k) ∧
    (keys.mapM (fun k : Str => lookup items permissive k) = none →
      randomShapes pk D fs x permissive keys same = none ∧ randomNumRows pk D fs x permissive keys same = none ∧
      randomDims pk D fs x permissive keys same = none) ∧
    ∀ vs, keys.mapM (fun k : Str => lookup items permissive k) = some vs →
      (same = true ∧ (keys = [] ∨ ∃ u ∈ vs, ∃ v ∈ vs, u.width ≠ v.width) →
        randomShapes pk D fs x permissive keys same = none ∧ randomNumRows pk D fs x permissive keys same = none ∧
        randomDims pk D fs x permissive keys same = none) ∧
      (¬ (same = true ∧ (keys = [] ∨ ∃ u ∈ vs, ∃ v ∈ vs, u.width ≠ v.width)) →
        randomShapes pk D fs x permissive keys same = some (vs.map Nd.pyShape) ∧
        randomNumRows pk D fs x permissive keys same = some (vs.map (fun v => (v.height : Int))) ∧
        randomDims pk D fs x permissive keys same = some (vs.map (fun v => (v.width : Int)))) := by
  have hone := random_one hcache hok hkeys hnd pk permissive
  have hread : randomRead pk D id fs x permissive 0 0 keys = keys.mapM (fun k : Str => lookup items permissive k) := by
    unfold randomRead
    congr 1
    funext k
    exact (hone k).1
  have hsh : keys.mapM (fun k : Str => randomShapeOne pk D fs x permissive k) =
      (keys.mapM (fun k : Str => lookup items permissive k)).map (fun vs => vs.map Nd.pyShape) := by
    rw [← mapM_map_some]
    congr 1
    funext k
    exact (hone k).2
  refine ⟨hread, fun hnone => ?_, fun vs hvs => ?_⟩
  · rw [hnone] at hsh
    unfold randomNumRows randomDims randomShapes
    rw [hsh]
    exact ⟨rfl, rfl, rfl⟩
  · rw [hvs] at hsh
    have hlen : vs.length = keys.length := by
      have := (mapM_eq_some_iff.1 hvs)
      have := congrArg List.length this
      simpa using this.symm
    have hagree : dimsAgree (vs.map Nd.pyShape) = decide (¬ (keys = [] ∨ ∃ u ∈ vs, ∃ v ∈ vs, u.width ≠ v.width)) := by
      have h1 := dimsAgree_map (vs.map (fun v => (([] : Str), v)))
      have h2 : (((vs.map (fun v => (([] : Str), v))).map (fun p : Str × Nd => (p.1, p.2.pyShape))).map (·.2)) = vs.map Nd.pyShape := by
        rw [List.map_map, List.map_map]; rfl
      rw [h2] at h1
      rw [h1, decide_eq_decide]
      have he : keys = [] ↔ vs = [] := by
        rw [← List.length_eq_zero_iff, ← List.length_eq_zero_iff, hlen]
      rw [he]
      unfold SameWidth
      simp only [ne_eq, List.map_eq_nil_iff, List.mem_map, not_or, not_exists, not_and, Decidable.not_not]
      constructor
      · rintro ⟨h1, h2⟩
        exact ⟨h1, fun u hu v hv => h2 _ ⟨u, hu, rfl⟩ _ ⟨v, hv, rfl⟩⟩
      · rintro ⟨h1, h2⟩
        refine ⟨h1, ?_⟩
        rintro _ ⟨u, hu, rfl⟩ _ ⟨v, hv, rfl⟩
        exact h2 u hu v hv
    have hlast : ∀ v : Nd, v.pyShape.getLast? = some (v.width : Int) := by intro v; cases v <;> rfl
    have hd : (vs.map Nd.pyShape).mapM (fun s : List Int => s.getLast?) = some (vs.map (fun v => (v.width : Int))) := by
      rw [List.mapM_map]
      exact mapM_eq_some_map (fun v _ => hlast v)
    constructor
    · rintro ⟨rfl, hbad⟩
      rw [decide_eq_false (not_not.2 hbad)] at hagree
      unfold randomNumRows randomDims randomShapes
      rw [hsh]
      simp only [Option.map_some, Option.bind_eq_bind, Option.bind_some, hagree, Bool.not_false, Bool.and_self, if_true,
        Option.map_none, Bool.false_and, Bool.false_eq_true, if_false, hd]
      exact ⟨trivial, trivial, trivial⟩
    · intro hgood
      have hc : (same && !dimsAgree (vs.map Nd.pyShape)) = false := by
        rw [hagree]
        cases same with
        | false => rfl
        | true => simpa using hgood
      unfold randomNumRows randomDims randomShapes
      rw [hsh]
      simp only [Option.map_some, Option.bind_eq_bind, Option.bind_some, hc, Bool.false_and, Bool.false_eq_true, if_false, hd,
        List.map_map]
      refine ⟨trivial, ?_, trivial⟩
      congr 2
      funext v
      exact rowsOfShape_py v

/-! ### what fails -/

/-- When nothing is left (e.g. an empty part of a script list), `read_num_rows()` of a script reader raises, while that
of an archive reader returns no records. -/
theorem C167_nothing_left (D : Decoder) (fs : Files) (x : Scp.Scp Str Str) (items : List (Str × Nd))
    (hok : ScpHas D fs x items) (pk : Peek) (ark : Bytes) (hark : EncS D items ark) :
    calls (ScpReader.call pk D fs) ⟨x, 0, none⟩ [.read 0, .numRows 0 true, .shapes 1 true, .dims 0 true] =
      some [.data items, .raised, .raised, .nums []] ∧
    calls (ArkReader.call pk D) (ArkReader.open ark) [.read 0, .numRows 0 true, .shapes 1 true, .dims 0 true] =
      some [.data items, .nums [], .shapes [], .nums []] := by
  constructor
  · rw [C167_script_partial D fs x items hok]
    simp [answers, answer, after, batch, sameWidth_nil]
  · rw [ark_calls pk _ 0 false _ (⟨hark, hark, rfl⟩ : ArkAt D items 0 false (ArkReader.open ark))]
    simp [answers, answer, after, batch, sameWidth_nil]

/-- An entry whose range starts after the end of its matrix (`[5:4]`, all rows from row 5, of a matrix with 3 rows) has
a reported shape with -2 rows; reading it raises. -/
theorem C167_negative_rows :
    ∃ (ark : Bytes) (r : ScpReader),
      r.scp.getByPos 0 = some (['u'], ['f'], some 2, some (5, 0)) ∧
      (∀ D, AtS D ark 2 (.mat .f32 1 [[[1, 0, 0, 0]], [[2, 0, 0, 0]], [[3, 0, 0, 0]]])) ∧
      ∀ (D : Decoder) (pk : Peek), r.readOne pk D id (fun _ => some ark) 0 0 = none ∧
        ∃ r', r.shapeOne pk D (fun _ => some ark) = some ((['u'], [-2, 1]), r') := by
  have hwf : (Nd.mat .f32 1 [[[1, 0, 0, 0]], [[2, 0, 0, 0]], [[3, 0, 0, 0]]]).WF := by unfold Nd.WF; decide
  obtain ⟨w, hw⟩ : ∃ out, writeMat (.mat .f32 1 [[[1, 0, 0, 0]], [[2, 0, 0, 0]], [[3, 0, 0, 0]]]) = some out := ⟨_, rfl⟩
  have hat : ∀ D, AtS D ([117, 32] ++ (binMarker ++ w ++ [])) 2 (.mat .f32 1 [[[1, 0, 0, 0]], [[2, 0, 0, 0]], [[3, 0, 0, 0]]]) := by
    intro D
    have hval := KMat.Value.plain (D := D) (.mat .f32 1 [[[1, 0, 0, 0]], [[2, 0, 0, 0]], [[3, 0, 0, 0]]])
      hwf (Or.inl rfl) (by unfold Nd.SizesOk; decide)
    obtain ⟨body, hb, hs⟩ := value_stored hval
    have hsh := value_shaped hval hb
    have hbw : body = w := by
      have : writeMat (.mat .f32 1 [[[1, 0, 0, 0]], [[2, 0, 0, 0]], [[3, 0, 0, 0]]]) = some body := hb
      rw [hw] at this; exact (Option.some.inj this).symm
    rw [hbw] at hs hsh
    exact ⟨[117, 32], w, [], rfl, rfl, by decide, hs, hsh⟩
  refine ⟨[117, 32] ++ (binMarker ++ w ++ []), ⟨⟨[['u']], [['f']], some [2], some [(5, 0)], none⟩, 0, none⟩, rfl, hat, ?_⟩
  intro D pk
  constructor
  · have hno := (C21_row_range D .f32 (Or.inl rfl) 1 _ hwf w hw pk 5 0 []).2 (by decide) true
    unfold ScpReader.readOne
    have hpos : Scp.Scp.getByPos (⟨[['u']], [['f']], some [2], some [(5, 0)], none⟩ : Scp.Scp Str Str) 0 =
      some (['u'], ['f'], some 2, some (5, 0)) := rfl
    rw [hpos]
    have hop : openArchive (fun _ => some ([117, 32] ++ (binMarker ++ w ++ []))) none ['f'] (some 2) =
        some ([117, 32] ++ (binMarker ++ w ++ []), binMarker ++ w ++ []) := rfl
    simp only [Option.bind_eq_bind, Option.bind_some, show combineRanges (some (5, 0)) 0 0 = some (5, 0) from rfl, hop]
    have hn : natOf 0 = some 0 := rfl
    rw [hn]
    simp only [Option.bind_some]
    unfold readRecord
    rw [List.append_assoc, C19_marker_round_trip]
    simp only [if_true, Option.bind_eq_bind]
    rw [hno]
    rfl
  · obtain ⟨s, hs⟩ := (shapeRecord_at (hat D) pk).1
    unfold ScpReader.shapeOne
    have hpos : Scp.Scp.getByPos (⟨[['u']], [['f']], some [2], some [(5, 0)], none⟩ : Scp.Scp Str Str) 0 =
      some (['u'], ['f'], some 2, some (5, 0)) := rfl
    rw [hpos]
    have hop := openArchive_ok (fs := fun _ => some ([117, 32] ++ (binMarker ++ w ++ []))) (opened := none) trivial
      (path := ['f']) rfl (o := 2) (by omega)
    simp only [Option.bind_eq_bind, Option.bind_some, show combineRanges (some (5, 0)) 0 0 = some (5, 0) from rfl, hop, hs]
    exact ⟨_, rfl⟩

/-! ### the script file of the writer, and examples -/

/-- The script file that the writer produces has the written records. -/
theorem C167_written_script (D : Decoder) (sep : Char) (path : Str) (hp : PathOk sep path) (items : List (Str × KMat × Nd))
    (hne : items ≠ []) (hk : ∀ it ∈ items, isToken it.1 = true) (hsep : ∀ it ∈ items, sep ∉ it.1)
    (hv : ∀ it ∈ items, it.2.1.Value D it.2.2) :
    ∃ w x, (ArkWriter.mk [] []).write sep path (items.map (fun it => (it.1, it.2.1))) = some w ∧
      Scp.load sep ':' w.script = some x ∧ x.cache = none ∧ x.key = items.map (·.1) ∧
      ∀ fs : Files, fs path = some w.ark → ScpHas D fs x (items.map (fun it => (it.1, it.2.2))) := by
  obtain ⟨w, bs, offs, hw, ha, henc, hsc, hat⟩ := write_specS sep path items hk hv ⟨[], []⟩
  have hl : offs.length = items.length := hat.length_eq.symm
  have hscr : w.script = (Scp.Scp.mk (items.map (·.1)) (items.map (fun _ => path)) (some offs) none none).save sep ':' := by
    rw [hsc, ← script_is_save sep path items offs hl]; rfl
  have hwf : (Scp.Scp.mk (items.map (·.1)) (items.map (fun _ => path)) (some offs) none none).WF :=
    ⟨by simp, by simp [hl], by simp⟩
  have hsav : Scp.Savable sep ':' (Scp.Scp.mk (items.map (·.1)) (items.map (fun _ => path)) (some offs) none none) := by
    refine ⟨?_, ?_, by simp, ⟨hp.sep.1, hp.sep.2, by decide, by decide, by decide⟩⟩
    · intro k hkm
      obtain ⟨it, hit, rfl⟩ := List.mem_map.1 hkm
      obtain ⟨_, _, h3, _⟩ := isToken_writeToken (hk it hit)
      refine ⟨hsep it hit, fun hc => ?_, fun hc => ?_⟩
      · have := h3 _ hc; revert this; decide
      · have := h3 _ hc; revert this; decide
    · intro p hpm
      obtain ⟨it, hit, rfl⟩ := List.mem_map.1 hpm
      exact hp.path
  obtain ⟨x, hx, hxk, hxp, hxo, hxr⟩ := Scp.C04_scp_round_trip sep ':' _ hwf (by simpa using hne) hsav
  rw [← hscr] at hx
  have hxr : x.range = none := by rw [hxr]; simp
  have hcache : x.cache = none := by
    have hx' := hx
    unfold Scp.load at hx'
    simp only [Option.bind_eq_bind, Option.bind_eq_some_iff] at hx'
    obtain ⟨_, _, _, _, hx'⟩ := hx'
    exact create_cache hx'
  refine ⟨w, x, hw, hx, hcache, hxk, fun fs hfs => ⟨by simp [hxk], fun i hi => ?_⟩⟩
  have hi' : i < items.length := by simpa using hi
  refine ⟨path, offs[i]'(by omega), w.ark, none, items[i].2.2, ?_, hfs, ?_, ?_⟩
  · simp only [List.getElem_map]
    exact getByPos_of hxk hxp hxo hxr (by rw [List.getElem?_map, List.getElem?_eq_getElem hi']; rfl)
      (by rw [List.getElem?_map, List.getElem?_eq_getElem hi']; rfl) (List.getElem?_eq_getElem (by omega))
  · have := (List.forall₂_iff_get.1 hat).2 i hi' (by omega)
    simpa using this
  · simp only [List.getElem_map]
    exact Part.whole _

/-- a list with two ranges of one archive, read in an order that moves backwards. -/
example (D : Decoder) : ∃ (fs : Files) (x : Scp.Scp Str Str) (items : List (Str × Nd)), ScpHas D fs x items ∧
    items.length = 2 ∧ (items.map (·.1)).Nodup ∧ x.key = items.map (·.1) ∧ x.cache = none ∧
    ∀ pk, calls (ScpReader.call pk D fs) ⟨x, 0, none⟩ [.numRows 0 true, .eof, .reset, .read 1, .shapes 1 false] =
      some [.nums [(['b'], 1), (['a'], 2)], .bool true, .unit,
        .data [(['b'], .mat .f32 1 [[[3, 0, 0, 0]]])], .shapes [(['a'], [2, 1])]] := by
  obtain ⟨w, hw⟩ : ∃ out, writeMat (.mat .f32 1 [[[1, 0, 0, 0]], [[2, 0, 0, 0]], [[3, 0, 0, 0]]]) = some out := ⟨_, rfl⟩
  have hat : AtS D ([117, 32] ++ (binMarker ++ w ++ [])) 2 (.mat .f32 1 [[[1, 0, 0, 0]], [[2, 0, 0, 0]], [[3, 0, 0, 0]]]) := by
    have hval := KMat.Value.plain (D := D) (.mat .f32 1 [[[1, 0, 0, 0]], [[2, 0, 0, 0]], [[3, 0, 0, 0]]])
      (by unfold Nd.WF; decide) (Or.inl rfl) (by unfold Nd.SizesOk; decide)
    obtain ⟨body, hb, hs⟩ := value_stored hval
    have hsh := value_shaped hval hb
    have hbw : body = w := by
      have : writeMat (.mat .f32 1 [[[1, 0, 0, 0]], [[2, 0, 0, 0]], [[3, 0, 0, 0]]]) = some body := hb
      rw [hw] at this; exact (Option.some.inj this).symm
    rw [hbw] at hs hsh
    exact ⟨[117, 32], w, [], rfl, rfl, by decide, hs, hsh⟩
  have hok : ScpHas D (fun _ => some ([117, 32] ++ (binMarker ++ w ++ [])))
      ⟨[['b'], ['a']], [['f'], ['f']], some [2, 2], some [(2, 1), (0, 2)], none⟩
      [(['b'], .mat .f32 1 [[[3, 0, 0, 0]]]), (['a'], .mat .f32 1 [[[1, 0, 0, 0]], [[2, 0, 0, 0]]])] := by
    refine ⟨rfl, fun i hi => ?_⟩
    have : i = 0 ∨ i = 1 := by simp at hi; omega
    rcases this with rfl | rfl
    · exact ⟨_, _, _, _, _, rfl, rfl, hat, Part.rows 2 1 _ (by simp [Nd.RangeOk])⟩
    · exact ⟨_, _, _, _, _, rfl, rfl, hat, Part.rows 0 2 _ (by simp [Nd.RangeOk])⟩
  refine ⟨_, _, _, hok, rfl, by decide, rfl, rfl, fun pk => ?_⟩
  rw [C167_script_partial D _ _ _ hok]
  decide

end Hyp.Kaldi
