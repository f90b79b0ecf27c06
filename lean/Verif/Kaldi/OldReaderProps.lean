import Verif.Kaldi.OldReader
import Verif.Kaldi.TextArkProps
import Verif.H5.MoreProps
import Verif.Segments.ExtSegProps

/-! C143: the old reader of Kaldi matrices and the conversion to HDF5. -/

namespace Hyp.Kaldi
open Hyp.Text

/-! ### one file -/

theorem oldInt_write {n : Nat} {b : Bytes} (h : writeInt32 n = some b) (rest : Bytes) : oldInt (b ++ rest) = some (n, rest) := by
  obtain ⟨p, rfl, hp⟩ := writeInt32_eq h
  have hl := packI32_length hp
  unfold oldInt
  have e1 : ((4 :: p ++ rest).drop 1).take 4 = p := by
    show (p ++ rest).take 4 = p
    rw [← hl, List.take_left' rfl]
  have e2 : (4 :: p ++ rest).drop 5 = rest := by
    show (p ++ rest).drop 4 = rest
    rw [← hl, List.drop_left' rfl]
  rw [e1, e2, unpack_pack hp]
  simp [natOf_nat]

theorem tok3 (dt : Dt) (hdt : dt = .f32 ∨ dt = .f64) (v : Char) (hv : v = 'V' ∨ v = 'M') (a : Bytes)
    (h : writeToken [dt.letter, v] = some a) : a.length = 3 ∧ ((decodeAscii a).bind parseTok) = some (dt, decide (v = 'V')) := by
  rcases hdt with rfl | rfl <;> rcases hv with rfl | rfl <;>
    (have : writeToken _ = some _ := h; revert this; simp only [Dt.letter]; intro h
     first
      | (have e : writeToken ['F', 'V'] = some [70, 86, 32] := by decide
         rw [e] at h; injection h with h; subst h; exact ⟨rfl, by decide⟩)
      | (have e : writeToken ['F', 'M'] = some [70, 77, 32] := by decide
         rw [e] at h; injection h with h; subst h; exact ⟨rfl, by decide⟩)
      | (have e : writeToken ['D', 'V'] = some [68, 86, 32] := by decide
         rw [e] at h; injection h with h; subst h; exact ⟨rfl, by decide⟩)
      | (have e : writeToken ['D', 'M'] = some [68, 77, 32] := by decide
         rw [e] at h; injection h with h; subst h; exact ⟨rfl, by decide⟩))

/-- **C143 (binary files).** A file that holds a matrix or vector of floats in Kaldi's binary format - whatever follows it -
is read as this array. -/
theorem C143_binary (D : Decoder) (m : Nd) (hwf : m.WF) (hdt : m.dt = .f32 ∨ m.dt = .f64) (hsz : m.SizesOk) :
    ∃ body, writeMat m = some body ∧ ∀ rest, oldMatrix D ([0, 66] ++ body ++ rest) = some m := by
  obtain ⟨body, hb, _⟩ := C20_matrix_round_trip D m hwf hdt hsz
  refine ⟨body, hb, fun rest => ?_⟩
  unfold oldMatrix
  have e1 : (([0, 66] : Bytes) ++ body ++ rest).take 2 = [0, 66] := rfl
  have e2 : (([0, 66] : Bytes) ++ body ++ rest).drop 2 = body ++ rest := rfl
  rw [if_pos e1, e2]
  unfold oldBin
  cases m with
  | vec dt els =>
    obtain ⟨a, c, ha, hc, rfl⟩ := writeMat_vec hb
    obtain ⟨hl, ht⟩ := tok3 dt hdt 'V' (Or.inl rfl) a ha
    have hw : ∀ x ∈ els, x.length = dt.size := hwf
    have e3 : (a ++ (c ++ els.flatten) ++ rest).take 3 = a := by rw [List.append_assoc, ← hl, List.take_left' rfl]
    have e4 : (a ++ (c ++ els.flatten) ++ rest).drop 3 = c ++ (els.flatten ++ rest) := by
      rw [List.append_assoc, ← hl, List.drop_left' rfl, List.append_assoc]
    rw [e3, e4]
    obtain ⟨st, hst, hpt⟩ := Option.bind_eq_some_iff.1 ht
    simp only [hst, hpt, Option.bind_eq_bind, Option.bind_some, decide_true, oldInt_write hc]
    rw [← flatten_length hw, List.take_left' rfl, frombuffer_flatten (Dt.size_pos (dt := dt) hdt) hw]
    rfl
  | mat dt cols rows =>
    obtain ⟨a, r, c, ha, hr, hc, rfl⟩ := writeMat_mat hb
    obtain ⟨hl, ht⟩ := tok3 dt hdt 'M' (Or.inr rfl) a ha
    have hw : ∀ x ∈ rows, x.length = cols ∧ ∀ e ∈ x, e.length = dt.size := hwf
    have hwe : ∀ x ∈ rows.flatten, x.length = dt.size := by
      intro x hx
      obtain ⟨l, hl, hx⟩ := List.mem_flatten.1 hx
      exact (hw l hl).2 x hx
    have e3 : (a ++ (r ++ (c ++ rows.flatten.flatten)) ++ rest).take 3 = a := by rw [List.append_assoc, ← hl, List.take_left' rfl]
    have e4 : (a ++ (r ++ (c ++ rows.flatten.flatten)) ++ rest).drop 3 = r ++ (c ++ (rows.flatten.flatten ++ rest)) := by
      rw [List.append_assoc, ← hl, List.drop_left' rfl, List.append_assoc, List.append_assoc]
    rw [e3, e4]
    obtain ⟨st, hst, hpt⟩ := Option.bind_eq_some_iff.1 ht
    have hd : decide ('M' = 'V') = false := by decide
    simp only [hst, hpt, Option.bind_eq_bind, Option.bind_some, hd, oldInt_write hr, oldInt_write hc]
    have e5 : rows.length * cols * dt.size = rows.flatten.flatten.length := by
      rw [flatten_length hwe, flatten_length (fun x hx => (hw x hx).1)]
    rw [e5, List.take_left' rfl, frombuffer_flatten (Dt.size_pos (dt := dt) hdt) hwe]
    simp only [Option.bind_some]
    rw [reshape_flatten (fun x hx => (hw x hx).1) rfl]
    rfl

theorem vstack_of_stack {isVec : Bool} {rows : List (List Bytes)} {dt : Dt} {cols : Nat} {out : List (List Bytes)}
    (h : stackRows isVec rows = some (.mat dt cols out)) : vstack rows = some (.mat dt cols out) := by
  unfold stackRows at h
  unfold vstack
  cases rows with
  | nil => cases h
  | cons r rs =>
    dsimp only at h ⊢
    split at h
    · rename_i hr
      rw [if_pos hr]
      split at h
      · injection h with h; cases h
      · exact h
    · cases h

/-- the loop over the lines finds what the newer reader finds, when that is a matrix -/
theorem oldAscii_of_textRows (D : Decoder) (isVec : Bool) : ∀ (ls : List Bytes) (rows : List (List Bytes)) (dt : Dt) (cols : Nat)
    (out : List (List Bytes)) (rest : List Bytes), textRows D isVec rows ls = some (.mat dt cols out, rest) →
    oldAscii D rows ls = some (.mat dt cols out)
  | [], rows, dt, cols, out, rest, h => by unfold textRows at h; injection h with h; injection h with h; cases h
  | l :: ls, rows, dt, cols, out, rest, h => by
    unfold textRows at h
    unfold oldAscii
    cases hd : decodeAscii l with
    | none => rw [hd] at h; cases h
    | some t =>
      rw [hd] at h
      dsimp only at h ⊢
      cases hs : splitWs t with
      | nil =>
        rw [hs] at h
        exact oldAscii_of_textRows D isVec ls rows dt cols out rest h
      | cons w ws =>
        rw [hs] at h
        dsimp only at h ⊢
        unfold textArr at h
        by_cases hl : (w :: ws).getLast? = some [']']
        · rw [if_pos hl] at h
          rw [if_pos hl]
          cases hm : (w :: ws).dropLast.mapM (fun w : Str => D.num w) with
          | none => rw [hm] at h; cases h
          | some r =>
            rw [hm] at h
            simp only [Option.bind_some] at h
            cases hst : stackRows isVec (rows ++ [r]) with
            | none => rw [hst] at h; cases h
            | some m =>
              rw [hst] at h
              injection h with h; injection h with h1 h2
              subst h1
              exact vstack_of_stack hst
        · rw [if_neg hl] at h
          rw [if_neg hl]
          cases hm : (w :: ws).mapM (fun w : Str => D.num w) with
          | none => rw [hm] at h; cases h
          | some r =>
            rw [hm] at h
            exact oldAscii_of_textRows D isVec ls _ dt cols out rest h

/-- **C143 (text files).** A file that holds the text of a matrix with rows and columns is read as this matrix, every number
as its numeral reads. -/
theorem C143_text (D : Decoder) (fmt : Dt → Bytes → Str) (rt : Dt → Bytes → Bytes) (dt : Dt) (cols : Nat) (rows : List (List Bytes))
    (hc : 0 < cols) (hr : rows ≠ []) (hrect : ∀ r ∈ rows, r.length = cols) (h : ∀ r ∈ rows, ∀ e ∈ r, NumOk D fmt rt dt e) :
    ∃ body, encodeAscii (textBody fmt (.mat dt cols rows)) = some body ∧
      ∀ rest, oldMatrix D (body ++ rest) = some (.mat .f32 cols (rows.map (fun r => r.map (rt dt)))) := by
  have hel : ∀ e ∈ (Nd.mat dt cols rows).elems, NumOk D fmt rt (Nd.mat dt cols rows).dt e := by
    intro e he
    obtain ⟨r, hr, he⟩ := List.mem_flatten.1 he
    exact h r hr e he
  obtain ⟨body, h1, h2⟩ := C135_text_array D fmt rt (.mat dt cols rows) ⟨hrect, fun e => absurd e hr⟩ hel
  have h1' : encodeAscii (textBody fmt (.mat dt cols rows)) = some body := h1
  refine ⟨body, h1', fun rest => ?_⟩
  have h3 := h2 rest
  rw [reread_mat, if_neg (by omega)] at h3
  unfold readText at h3
  rw [if_neg (by omega)] at h3
  obtain ⟨⟨m, ls⟩, hm, hrest⟩ := Option.map_eq_some_iff.1 h3
  injection hrest with hm1 hm2
  dsimp only at hm1
  subst hm1
  have hb : body = toBytes (textBody fmt (.mat dt cols rows)) := by
    have := encode_toBytes (textBody_ascii hel)
    rw [this] at h1'; exact (Option.some.inj h1').symm
  obtain ⟨r, rs, hrs⟩ := List.exists_cons_of_ne_nil hr
  have hbody : ∃ s, body ++ rest = [32, 91, 10] ++ s := by
    rw [hb, textBody_mat, if_neg (by omega), hrs]
    exact ⟨_, rfl⟩
  obtain ⟨s, hs⟩ := hbody
  rw [hs] at hm ⊢
  unfold oldMatrix
  have t1 : (([32, 91, 10] : Bytes) ++ s).take 2 = [32, 91] := rfl
  have t2 : (([32, 91, 10] : Bytes) ++ s).drop 2 = 10 :: s := rfl
  rw [t1, if_neg (by decide), if_pos rfl, t2]
  have l1 : linesB (([32, 91, 10] : Bytes) ++ s) = [32, 91, 10] :: linesB s := linesB_line (l := [32, 91]) (by decide) s
  have l2 : linesB ((10 : UInt8) :: s) = [10] :: linesB s := linesB_line (l := []) (by simp) s
  rw [l1] at hm
  rw [l2]
  have d1 : decodeAscii [32, 91, 10] = some [' ', '[', '\n'] := by decide
  have s1 : splitWs [' ', '[', '\n'] = [['[']] := by decide
  have d2 : decodeAscii [10] = some ['\n'] := by decide
  have s2 : splitWs ['\n'] = [] := by decide
  unfold textFirst at hm
  rw [d1] at hm
  dsimp only at hm
  rw [s1] at hm
  dsimp only at hm
  rw [if_pos rfl, if_pos rfl] at hm
  unfold oldAscii
  rw [d2]
  dsimp only
  rw [s2]
  exact oldAscii_of_textRows D false _ _ _ _ _ _ hm

/-! ### scripts -/

theorem arrays_slice {D : Decoder} {fs : Files} {r : OldReader} {sq : Bool} {keys : List Str} {x : List Nd}
    (h : r.arrays D fs sq keys = some x) (a b : Nat) :
    r.arrays D fs sq ((keys.take b).drop a) = some ((x.take b).drop a) := by
  unfold OldReader.arrays at *
  rw [mapM_eq_some_iff] at *
  rw [List.map_drop, List.map_take, h, List.map_drop, List.map_take]

theorem arrays_congr (D : Decoder) (fs : Files) (r r' : OldReader) (h : r.scp = r'.scp) (sq : Bool) (keys : List Str) :
    r.arrays D fs sq keys = r'.arrays D fs sq keys := by unfold OldReader.arrays; rw [h]

theorem take_drop_zip {α β : Type} (a : Nat) (k : List α) (x : List β) (b : Nat) :
    ((k.take b).drop a).zip ((x.take b).drop a) = ((k.zip x).take b).drop a := by
  unfold List.zip
  rw [← List.drop_zipWith, ← List.take_zipWith]

theorem dictSet_all {p : Str} : ∀ (t : List (Str × Str)) (k : Str), (∀ e ∈ t, e.2 = p) → ∀ e ∈ dictSet t k p, e.2 = p
  | [], k, _, e, he => by
    have : e = (k, p) := by simpa [dictSet] using he
    rw [this]
  | (k', v') :: t, k, h, e, he => by
    unfold dictSet at he
    split at he
    · rcases List.mem_cons.1 he with rfl | he
      · rfl
      · exact h e (List.mem_cons_of_mem _ he)
    · rcases List.mem_cons.1 he with rfl | he
      · exact h _ List.mem_cons_self
      · exact dictSet_all t k (fun e he => h e (List.mem_cons_of_mem _ he)) e he

theorem loop_chunks (D : Decoder) (fs : Files) (tr : Nd → Nd) (field : Str) (sq : Bool) (c : Nat) (hc : 0 < c)
    (scp : List (Str × Str)) (x : List Nd) (hx : OldReader.arrays D fs ⟨scp, 0⟩ sq (scp.map Prod.fst) = some x) :
    ∀ (n cur : Nat) (f : H5.File), cur ≤ scp.length → scp.length - cur ≤ n →
      ark2hypLoop D fs tr field (some c) sq n ⟨scp, cur⟩ f =
        (H5.hypWrite f field (((scp.map Prod.fst).zip (x.map tr)).drop cur)).map (fun f => (f, ⟨scp, scp.length⟩))
  | 0, cur, f, h1, h2 => by
    have hcur : cur = scp.length := by omega
    have hlen : (((scp.map Prod.fst).zip (x.map tr)).drop cur) = [] := by
      rw [List.drop_eq_nil_iff]; simp; omega
    rw [hlen, hcur]; rfl
  | n + 1, cur, f, h1, h2 => by
    unfold ark2hypLoop
    by_cases he : cur = scp.length
    · have hlen : (((scp.map Prod.fst).zip (x.map tr)).drop cur) = [] := by
        rw [List.drop_eq_nil_iff]; simp; omega
      rw [if_pos (by simp [OldReader.eof, he]), hlen, he]; rfl
    · rw [if_neg (by simp [OldReader.eof, he])]
      have hr : OldReader.read D fs ⟨scp, cur⟩ (some c) none sq =
          some (((x.take (min (cur + c) scp.length)).drop cur, ((scp.map Prod.fst).take (min (cur + c) scp.length)).drop cur),
            ⟨scp, min (cur + c) scp.length⟩) := by
        unfold OldReader.read
        simp only [Option.getD_none, List.length_map]
        rw [arrays_congr D fs ⟨scp, cur⟩ ⟨scp, 0⟩ rfl, arrays_slice hx]
        rfl
      rw [hr]
      simp only [Option.bind_some]
      have hz : (((scp.map Prod.fst).take (min (cur + c) scp.length)).drop cur).zip
          (((x.take (min (cur + c) scp.length)).drop cur).map tr) =
          (((scp.map Prod.fst).zip (x.map tr)).take (min (cur + c) scp.length)).drop cur := by
        rw [List.map_drop, List.map_take, take_drop_zip]
      rw [hz]
      have hsplit : ((scp.map Prod.fst).zip (x.map tr)).drop cur =
          (((scp.map Prod.fst).zip (x.map tr)).take (min (cur + c) scp.length)).drop cur ++
            ((scp.map Prod.fst).zip (x.map tr)).drop (min (cur + c) scp.length) := by
        generalize (scp.map Prod.fst).zip (x.map tr) = l
        generalize hb : min (cur + c) scp.length = b
        have hcb : cur ≤ b := by omega
        rw [List.drop_take]
        have : l.drop b = (l.drop cur).drop (b - cur) := by rw [List.drop_drop]; congr 1; omega
        rw [this, List.take_append_drop]
      rw [hsplit, H5.hypWrite_append]
      cases H5.hypWrite f field ((((scp.map Prod.fst).zip (x.map tr)).take (min (cur + c) scp.length)).drop cur) with
      | none => rfl
      | some g =>
        simp only [Option.bind_some]
        exact loop_chunks D fs tr field sq c hc scp x hx n _ g (by omega) (by omega)

theorem loop_all (D : Decoder) (fs : Files) (tr : Nd → Nd) (field : Str) (sq : Bool)
    (scp : List (Str × Str)) (hne : scp ≠ []) (x : List Nd) (hx : OldReader.arrays D fs ⟨scp, 0⟩ sq (scp.map Prod.fst) = some x)
    (n : Nat) (hn : 0 < n) (f : H5.File) :
    ark2hypLoop D fs tr field none sq n ⟨scp, 0⟩ f =
      (H5.hypWrite f field ((scp.map Prod.fst).zip (x.map tr))).map (fun f => (f, ⟨scp, scp.length⟩)) := by
  have hl : scp.length ≠ 0 := by simpa using hne
  obtain ⟨n, rfl⟩ : ∃ m, n = m + 1 := ⟨n - 1, by omega⟩
  unfold ark2hypLoop
  rw [if_neg (by simp [OldReader.eof]; omega)]
  have hr : OldReader.read D fs ⟨scp, 0⟩ none none sq = some ((x, scp.map Prod.fst), ⟨scp, scp.length⟩) := by
    unfold OldReader.read
    simp only [Option.getD_none, List.drop_zero]
    rw [hx]; simp
  rw [hr]
  simp only [Option.bind_some]
  cases H5.hypWrite f field ((scp.map Prod.fst).zip (x.map tr)) with
  | none => rfl
  | some g =>
    simp only [Option.bind_some, Option.map_some]
    cases n with
    | zero => rfl
    | succ n => unfold ark2hypLoop; rw [if_pos (by simp [OldReader.eof])]

theorem hypWrite_field (f : H5.File) (field : Str) (rs : List (Str × Nd)) :
    H5.hypWrite f field rs = H5.hypWrite f [] (rs.map (fun r => (r.1 ++ field, r.2))) := by
  unfold H5.hypWrite
  rw [List.foldlM_map]
  simp

theorem oldSplit_plain (p : Str) (h : ':' ∉ p) : oldSplit p = (p, 0) := by
  unfold oldSplit
  dsimp only
  split
  · rename_i q n heq _
    have : (':' : Char) ∈ p.reverse.drop ((p.reverse.takeWhile (fun c => decide ('0' ≤ c ∧ c ≤ '9'))).reverse).length := by
      rw [heq]; exact List.mem_cons_self
    exact absurd (List.mem_reverse.1 (List.mem_of_mem_drop this)) h
  · rfl

/-- **C143 (positions in paths).** A path that ends in `:n` is read from byte `n` of the file. -/
theorem C143_position (D : Decoder) (fs : Files) (p : Str) (n : Nat) :
    oldRead D fs (p ++ ':' :: printNat n) = (fs p).bind (fun b => oldMatrix D (b.drop n)) := by
  have hdig : ∀ c ∈ (printNat n).reverse, decide ('0' ≤ c ∧ c ≤ '9') = true := fun c hc => by
    obtain ⟨d, hd, rfl⟩ := mem_printNat (List.mem_reverse.1 hc)
    have hall : ∀ d < 10, decide ('0' ≤ digitChar d ∧ digitChar d ≤ '9') = true := by decide
    exact hall d hd
  have hrev : (p ++ ':' :: printNat n).reverse = (printNat n).reverse ++ ':' :: p.reverse := by simp
  have htw : (p ++ ':' :: printNat n).reverse.takeWhile (fun c => decide ('0' ≤ c ∧ c ≤ '9')) = (printNat n).reverse := by
    rw [hrev, List.takeWhile_append_of_pos hdig]
    have : decide ('0' ≤ ':' ∧ ':' ≤ '9') = false := by decide
    rw [List.takeWhile_cons_of_neg (by simp [this]), List.append_nil]
  have hs : oldSplit (p ++ ':' :: printNat n) = (p, n) := by
    unfold oldSplit
    dsimp only
    rw [htw, List.reverse_reverse, hrev, List.drop_left' (by simp), parseNat_printNat]
    simp
  unfold oldRead
  rw [hs]

theorem zip_sublist {α β : Type} : ∀ (l : List α) (m : List β), ((l.zip m).map (fun e => e.1)).Sublist l
  | [], _ => by simp
  | _ :: _, [] => by simp
  | a :: l, b :: m => by rw [List.zip_cons_cons, List.map_cons]; exact (zip_sublist l m).cons_cons a

/-- **C143 (script).** From a script with different keys the reader keeps the keys in order and, for each, its path below
the input directory; it starts at the first record, and `reset` brings it back there. -/
theorem C143_open (sep : Char) (content : Str) (x : Scp.Scp Str Str) (hx : Scp.load sep ':' content = some x) (hk : x.key.Nodup) :
    (∀ d, ∃ r, OldReader.open sep (some d) content = some r ∧ r.cur = 0 ∧
      r.scp = (x.key.zip x.path).map (fun e => (e.1, d ++ '/' :: e.2))) ∧
    (∃ r, OldReader.open sep none content = some r ∧ r.cur = 0 ∧ r.scp = x.key.zip x.path) ∧
    ∀ r : OldReader, r.reset.cur = 0 ∧ r.reset.scp = r.scp := by
  have hz : ((x.key.zip x.path).map (fun e => e.1)).Nodup := by
    exact hk.sublist (zip_sublist x.key x.path)
  refine ⟨fun d => ⟨_, by unfold OldReader.open; rw [hx]; rfl, rfl, ?_⟩, ⟨_, by unfold OldReader.open; rw [hx]; rfl, rfl, ?_⟩,
    fun r => ⟨rfl, rfl⟩⟩
  · refine (Segments.foldl_dictSet_new (d := []) (fun e : Str × Str => e.1) (fun e => (d ++ ['/']) ++ e.2) (by simpa using hz)).trans ?_
    simp
  · refine (Segments.foldl_dictSet_new (d := []) (fun e : Str × Str => e.1) (fun e => [] ++ e.2) (by simpa using hz)).trans ?_
    simp

/-- **C143 (axes of length one).** Removing the axes of length one keeps the numbers, their order and their type; the result
is a matrix exactly when the array is a matrix whose two sizes are not one. -/
theorem C143_squeeze (m m' : Nd) (h : squeezeNd m = some m') : m'.elems = m.elems ∧ m'.dt = m.dt ∧
    ∀ dt cols rows, m' = .mat dt cols rows ↔ (m = .mat dt cols rows ∧ rows.length ≠ 1 ∧ cols ≠ 1) := by
  cases m with
  | vec dt els =>
    unfold squeezeNd at h; dsimp only at h
    split at h
    · cases h
    · injection h with h; subst h
      exact ⟨rfl, rfl, by intros; constructor <;> intro h <;> simp at h⟩
  | mat dt cols rows =>
    unfold squeezeNd at h; dsimp only at h
    split at h
    · rename_i h1
      split at h
      · cases h
      · injection h with h; subst h
        refine ⟨rfl, rfl, fun a b c => ⟨fun h => by simp at h, fun ⟨h, h2, _⟩ => ?_⟩⟩
        injection h with _ _ h; subst h; exact absurd h1 h2
    · rename_i h1
      split at h
      · rename_i h3
        injection h with h; subst h
        refine ⟨rfl, rfl, fun a b c => ⟨fun h => by simp at h, fun ⟨h, _, h2⟩ => ?_⟩⟩
        injection h with _ h _; subst h; exact absurd h3 h2
      · rename_i h3
        injection h with h; subst h
        refine ⟨rfl, rfl, fun a b c => ⟨fun h => ⟨h, ?_, ?_⟩, fun h => h.1⟩⟩
        · injection h with _ _ h; subst h; exact h1
        · injection h with _ h _; subst h; exact h3

/-- **C143 (conversion).** A script with different keys, each with a file of its own that is read as an array - without
its axes of length one when these are to be removed -: for every chunk size the conversion ends - after at most one read per entry - and the HDF5 file has under every key,
followed by the field, the array of the entry converted to the type of the file. -/
theorem C143_convert (D : Decoder) (num : Bytes → Bytes) (fs : Files) (tr : Nd → Nd) (field : Str) (chunk : Option Nat) (hc : chunk ≠ some 0) (sq : Bool)
    (entries : List ((Str × Str) × Nd)) (hne : entries ≠ []) (hk : (entries.map (fun e => e.1.1)).Nodup)
    (hkey : ∀ e ∈ entries, H5.PlainKey (e.1.1 ++ field)) (hpath : ∀ e ∈ entries, ':' ∉ e.1.2)
    (hfile : ∀ e ∈ entries, ∃ m, (fs e.1.2).bind (oldMatrix D) = some m ∧ (if sq then squeezeNd m else some m) = some e.2) :
    ∃ out : H5.File, (∀ n, entries.length ≤ n →
        ∃ r, ark2hypLoop D fs tr field chunk sq n ⟨entries.map Prod.fst, 0⟩ ⟨[]⟩ = some (out, r) ∧ r.eof = true) ∧
      H5.hypRead num out field (entries.map (fun e => e.1.1)) = some (entries.map (fun e => tr e.2)) ∧
      out.keys.Perm (entries.map (fun e => e.1.1 ++ field)) := by
  have hget : ∀ e ∈ entries, dictGet (entries.map Prod.fst) e.1.1 = some e.1.2 := fun e he => by
    rw [Segments.dictGet_eq_iff (by rw [List.map_map]; exact hk)]
    exact List.mem_map.2 ⟨e, he, rfl⟩
  have hx : OldReader.arrays D fs ⟨entries.map Prod.fst, 0⟩ sq ((entries.map Prod.fst).map Prod.fst) = some (entries.map Prod.snd) := by
    unfold OldReader.arrays
    rw [mapM_eq_some_iff, List.map_map, List.map_map, List.map_map]
    refine List.map_congr_left (fun e he => ?_)
    simp only [Function.comp_apply]
    rw [hget e he]
    simp only [Option.bind_some]
    unfold oldRead
    rw [oldSplit_plain _ (hpath e he)]
    obtain ⟨m, h1, h3⟩ := hfile e he
    simp only [List.drop_zero]
    have h2 : ((fs e.1.2).bind fun b => oldMatrix D b) = some m := h1
    rw [h2]; exact h3
  have hz : ((entries.map Prod.fst).map Prod.fst).zip ((entries.map Prod.snd).map tr) = entries.map (fun e => (e.1.1, tr e.2)) := by
    rw [List.map_map, List.map_map, List.zip_map']; rfl
  have hnd : (entries.map (fun e => e.1.1 ++ field)).Nodup := by
    have : entries.map (fun e => e.1.1 ++ field) = (entries.map (fun e => e.1.1)).map (· ++ field) := by rw [List.map_map]; rfl
    rw [this]
    exact hk.map (fun a b h => List.append_cancel_right h)
  obtain ⟨out, ho, hflat⟩ := (H5.hypWrite_flat (entries.map (fun e => (e.1.1 ++ field, tr e.2))) ⟨[]⟩ [] rfl (by
      intro it hit
      obtain ⟨e, he, rfl⟩ := List.mem_map.1 hit
      exact hkey e he)).1 (by simpa [List.map_map, Function.comp_def] using hnd)
  have hw : H5.hypWrite ⟨[]⟩ field (entries.map (fun e => (e.1.1, tr e.2))) = some out := by
    rw [hypWrite_field, List.map_map]; exact ho
  rw [List.nil_append, List.map_map] at hflat
  refine ⟨out, fun n hn => ⟨⟨entries.map Prod.fst, (entries.map Prod.fst).length⟩, ?_, by simp [OldReader.eof]⟩, ?_, ?_⟩
  · have hpos : 0 < entries.length := List.length_pos_iff.2 hne
    cases chunk with
    | none =>
      rw [loop_all D fs tr field sq _ (by simpa using hne) _ hx n (by omega), hz, hw]; rfl
    | some c =>
      rw [loop_chunks D fs tr field sq c (Nat.pos_of_ne_zero (fun h => hc (by rw [h]))) _ _ hx n 0 _ (by simp) (by simpa using hn), hz,
        List.drop_zero, hw]; rfl
  · unfold H5.hypRead
    rw [mapM_eq_some_iff, List.map_map, List.map_map]
    refine List.map_congr_left (fun e he => ?_)
    simp only [Function.comp_apply]
    have hpk := hkey e he
    have hmem : (e.1.1 ++ field, H5.DSet.plain (tr e.2)) ∈ entries.map ((fun it : Str × Nd => (it.1, H5.DSet.plain it.2)) ∘ fun e => (e.1.1 ++ field, tr e.2)) :=
      List.mem_map.2 ⟨e, he, rfl⟩
    rw [hflat.get hpk]
    rw [if_pos ((hflat.has hpk).2 (List.mem_map.2 ⟨_, hmem, rfl⟩))]
    rw [H5.lookup_of_mem (by rw [List.map_map]; exact hnd) hmem]
    rfl
  · rw [hflat.keys, List.map_map]
    have : entries.map ((fun e : Str × H5.DSet => e.1) ∘ ((fun it : Str × Nd => (it.1, H5.DSet.plain it.2)) ∘ fun e => (e.1.1 ++ field, tr e.2))) =
      entries.map (fun e => e.1.1 ++ field) := rfl
    rw [this]
    exact (List.perm_ext_iff_of_nodup (npUnique_nodup _) hnd).2 (fun k => mem_npUnique)

/-- **C143 (archives).** A script written together with an archive cannot be read: the positions of the records are dropped,
every record is looked for at the beginning of the archive, where there is a key, and reading any of them raises. -/
theorem C143_archive_raises (D : Decoder) (sep : Char) (path : Str) (hp : PathOk sep path) (items : List (Str × KMat × Nd))
    (hne : items ≠ []) (hk : ∀ it ∈ items, isToken it.1 = true) (hsep : ∀ it ∈ items, sep ∉ it.1)
    (hv : ∀ it ∈ items, it.2.1.Value D it.2.2) (fs : Files) (sq : Bool) :
    ∃ w r, (ArkWriter.mk [] []).write sep path (items.map (fun it => (it.1, it.2.1))) = some w ∧
      OldReader.open sep none w.script = some r ∧ r.scp ≠ [] ∧
      (fs path = some w.ark → ∀ num, num ≠ some 0 → r.read D fs num none sq = none) := by
  obtain ⟨w, x, offs, hw, hx, hxk, hxp, hxo, hxr, hat⟩ := load_script D sep path hp items hne hk hsep hv
  have hzip : x.key.zip x.path = items.map (fun it => (it.1, path)) := by
    rw [hxk, hxp, List.zip_map']
  have hpaths : ∀ (l : List (Str × Str)) (t : List (Str × Str)), (∀ e ∈ l, e.2 = path) → (∀ e ∈ t, e.2 = path) →
      ∀ e ∈ l.foldl (fun t e => dictSet t e.1 ([] ++ e.2)) t, e.2 = path := by
    intro l
    induction l with
    | nil => intro t _ h; exact h
    | cons a l ih =>
      intro t h1 h2
      refine ih _ (fun e he => h1 e (List.mem_cons_of_mem _ he)) ?_
      have ha := h1 a List.mem_cons_self
      dsimp only
      rw [List.nil_append, ha]
      exact dictSet_all t a.1 h2
  have hr : OldReader.open sep none w.script = some ⟨(items.map (fun it => (it.1, path))).foldl (fun t e => dictSet t e.1 ([] ++ e.2)) [], 0⟩ := by
    unfold OldReader.open
    rw [hx]
    simp only [Option.bind_eq_bind, Option.bind_some]
    rw [hzip]; rfl
  have hall := hpaths (items.map (fun it => (it.1, path))) [] (fun e he => by
    obtain ⟨it, _, rfl⟩ := List.mem_map.1 he; rfl) (by simp)
  have hnil : (items.map (fun it => (it.1, path))).foldl (fun t e => dictSet t e.1 ([] ++ e.2)) ([] : List (Str × Str)) ≠ [] := by
    obtain ⟨it, its, rfl⟩ := List.exists_cons_of_ne_nil hne
    have h2 := (dictGet_foldl ((it :: its).map (fun it => (it.1, path))) ([] : List (Str × Str)) it.1).2 (Or.inl ⟨path, by simp⟩)
    intro h0
    have h3 : ((it :: its).map (fun it => (it.1, path))).foldl (fun t e => dictSet t e.1 e.2) ([] : List (Str × Str)) = [] := h0
    rw [h3] at h2; simp [dictGet] at h2
  refine ⟨w, _, hw, hr, hnil, fun hfs num hnum => ?_⟩
  generalize (items.map (fun it => (it.1, path))).foldl (fun t e => dictSet t e.1 ([] ++ e.2)) ([] : List (Str × Str)) = scp at hall hnil
  -- the archive starts with a key
  have hark : oldMatrix D w.ark = none := by
    obtain ⟨it, its, rfl⟩ := List.exists_cons_of_ne_nil hne
    obtain ⟨w1, bs, offs1, hw1, ha1, henc, _, _⟩ := write_spec (D := D) sep path (it :: its) hk hv ⟨[], []⟩
    rw [hw] at hw1; injection hw1 with hw1; subst hw1
    rw [List.nil_append] at ha1
    obtain ⟨hne1, hnsp, hch, t, ht⟩ := isToken_writeToken (hk it List.mem_cons_self)
    rw [List.map_cons] at henc
    cases henc with
    | cons hk1 ht1 hs1 he1 =>
      obtain ⟨e, het, hee, hsp⟩ := writeToken_eq ht1
      rw [ha1, het]
      obtain ⟨c, cs, hcs⟩ := List.exists_cons_of_ne_nil hne1
      rw [hcs] at hee
      have hlc := hch c (by rw [hcs]; exact List.mem_cons_self)
      unfold encodeAscii at hee
      split at hee
      · injection hee with hee
        rw [List.map_cons] at hee
        have h0 : UInt8.ofNat c.toNat ≠ 0 := by
          intro h
          have := congrArg UInt8.toNat h
          simp at this; omega
        have h32 : UInt8.ofNat c.toNat ≠ 32 := fun h => hsp (by rw [← hee, h]; exact List.mem_cons_self)
        rw [← hee]
        unfold oldMatrix
        rw [if_neg, if_neg]
        · intro h
          cases hcc : cs with
          | nil => rw [hcc] at h; simp at h
          | cons a b => rw [hcc] at h; simp at h; exact h32 h.1
        · intro h
          cases hcc : cs with
          | nil => rw [hcc] at h; simp at h
          | cons a b => rw [hcc] at h; simp at h; exact h0 h.1
      · cases hee
  have hread : ∀ e ∈ scp, oldRead D fs e.2 = none := fun e he => by
    unfold oldRead
    rw [hall e he, oldSplit_plain _ hp.path.2.1]
    simp only [hfs, Option.bind_some, List.drop_zero]
    exact hark
  obtain ⟨e, t, rfl⟩ := List.exists_cons_of_ne_nil hnil
  have harr : ∀ ks, OldReader.arrays D fs ⟨e :: t, 0⟩ sq (e.1 :: ks) = none := fun ks => by
    unfold OldReader.arrays
    rw [List.mapM_cons]
    have : dictGet (e :: t) e.1 = some e.2 := by simp [dictGet]
    rw [this]
    simp only [Option.bind_some]
    rw [hread e List.mem_cons_self]
    rfl
  unfold OldReader.read
  cases num with
  | none =>
    simp only [Option.getD_none, List.drop_zero, List.map_cons]
    rw [harr]; rfl
  | some n =>
    have hn : 0 < n := Nat.pos_of_ne_zero (fun h => hnum (by rw [h]))
    simp only [Option.getD_none, List.drop_zero, List.map_cons, Nat.zero_add]
    have : ∃ m, min n (e.1 :: t.map Prod.fst).length = m + 1 := ⟨min n (e.1 :: t.map Prod.fst).length - 1, by simp; omega⟩
    obtain ⟨m, hm⟩ := this
    rw [hm, List.take_succ_cons, harr]; rfl

/-- **C143 (chunks of zero records).** With a chunk size of zero the conversion of a script that is not empty never ends:
after any number of iterations nothing has been written and the reader is where it was. -/
theorem C143_zero_chunk (D : Decoder) (fs : Files) (tr : Nd → Nd) (field : Str) (sq : Bool) (scp : List (Str × Str)) (hne : scp ≠ [])
    (f : H5.File) : ∀ n, ark2hypLoop D fs tr field (some 0) sq n ⟨scp, 0⟩ f = some (f, ⟨scp, 0⟩)
  | 0 => rfl
  | n + 1 => by
    have hl : scp.length ≠ 0 := by simpa using hne
    unfold ark2hypLoop
    rw [if_neg (by simp [OldReader.eof]; omega)]
    have hr : OldReader.read D fs ⟨scp, 0⟩ (some 0) none sq = some (([], []), ⟨scp, 0⟩) := by
      unfold OldReader.read OldReader.arrays; simp
    rw [hr]
    exact C143_zero_chunk D fs tr field sq scp hne f n

/-- **C143 (reading the rest).** After some records, `read()` returns the remaining ones but sets the position to their
number: when this is not half of the script the reader is not at the end, although everything has been read. -/
theorem C143_rest_position (D : Decoder) (fs : Files) (sq : Bool) (r : OldReader) (x : List Nd) (ks : List Str) (r' : OldReader)
    (h : r.read D fs none none sq = some ((x, ks), r')) : ks = (r.scp.map Prod.fst).drop r.cur ∧
      r'.cur = r.scp.length - r.cur ∧ (r'.eof = true ↔ (r.cur = 0 ∨ r.scp = [])) := by
  unfold OldReader.read at h
  simp only [Option.getD_none, Option.bind_eq_bind, Option.bind_eq_some_iff] at h
  obtain ⟨y, hy, h⟩ := h
  injection h with h; injection h with h1 h2; injection h1 with h3 h4
  subst h2
  refine ⟨h4.symm, by simp, ?_⟩
  simp only [OldReader.eof, List.length_drop, List.length_map, decide_eq_true_eq]
  constructor
  · intro h
    by_cases h0 : r.scp = []
    · exact Or.inr h0
    · have : r.scp.length ≠ 0 := by simpa using h0
      left; omega
  · rintro (h | h)
    · omega
    · simp [h]

/-- **C143 (records).** Reading a number of records returns the keys from the current position on, at most that number, and
moves the position behind them. -/
theorem C143_records (D : Decoder) (fs : Files) (sq : Bool) (r : OldReader) (hcur : r.cur ≤ r.scp.length) (n : Nat) (x : List Nd)
    (ks : List Str) (r' : OldReader) (h : r.read D fs (some n) none sq = some ((x, ks), r')) :
    ks = ((r.scp.map Prod.fst).drop r.cur).take n ∧ x.length = ks.length ∧ r'.scp = r.scp ∧ r'.cur = r.cur + ks.length ∧
      (r'.eof = true ↔ r.scp.length - r.cur ≤ n) := by
  unfold OldReader.read at h
  simp only [Option.getD_none, Option.bind_eq_bind, Option.bind_eq_some_iff] at h
  obtain ⟨y, hy, h⟩ := h
  injection h with h; injection h with h1 h2; injection h1 with h3 h4
  subst h3; subst h2
  have hk : ((r.scp.map Prod.fst).take (min (r.cur + n) (r.scp.map Prod.fst).length)).drop r.cur = ((r.scp.map Prod.fst).drop r.cur).take n := by
    rw [List.drop_take]
    apply List.take_eq_take_iff.2
    simp; omega
  rw [hk] at h4 hy
  have hlen : ks.length = min n (r.scp.length - r.cur) := by rw [← h4]; simp
  refine ⟨h4.symm, ?_, rfl, ?_, ?_⟩
  · unfold OldReader.arrays at hy
    rw [mapM_eq_some_iff] at hy
    have := congrArg List.length hy
    rw [List.length_map, List.length_map, h4] at this
    exact this.symm
  · simp only [hlen, List.length_map]; omega
  · simp only [OldReader.eof, List.length_map, decide_eq_true_eq]; omega

/-- two files, one with a text matrix and one with a binary vector -/
def exOld : Files := fun p =>
  if p = ['a'] then some (toBytes " [\n 1.000000 2.000000 \n 3.000000 4.000000 ]\n".toList)
  else if p = ['b'] then some ([0, 66, 70, 86, 32, 4, 1, 0, 0, 0] ++ [1, 2, 3, 4])
  else none

/-- non-vacuity: the hypotheses of `C143_convert` about the files -/
example : (exOld ['a']).bind (oldMatrix exD) = some (.mat .f32 2 [[[1], [2]], [[3], [4]]]) ∧
    (exOld ['b']).bind (oldMatrix exD) = some (.vec .f32 [[1, 2, 3, 4]]) := by decide +kernel

/-- non-vacuity: the conversion, one record at a time -/
example : (ark2hypLoop exD exOld id ['.', 'v'] (some 1) false 2 ⟨[(['k'], ['a']), (['q'], ['b'])], 0⟩ ⟨[]⟩).map
      (fun x => (x.1.keys, H5.hypRead id x.1 ['.', 'v'] [['q']])) =
    some ([['k', '.', 'v'], ['q', '.', 'v']], some [.vec .f32 [[1, 2, 3, 4]]]) := by decide +kernel

/-- non-vacuity: axes of length one -/
example : squeezeNd (.mat .f32 1 [[[1]], [[2]]]) = some (.vec .f32 [[1], [2]]) := by decide

/-- non-vacuity: a position in the file can only be given with the path -/
example : oldSplit ['f', ':', '1', '2'] = (['f'], 12) ∧ oldSplit ['f', ':', 'x'] = (['f', ':', 'x'], 0) := by decide +kernel

/-- non-vacuity: an archive of one record and its script -/
example : ((ArkWriter.mk [] []).write ' ' ['a'] [(['k'], .plain (.vec .f32 [[0, 0, 0, 0]]))]).isSome = true ∧
    PathOk ' ' ['a'] ∧ isToken ['k'] = true ∧
    (OldReader.open ' ' none ['k', ' ', 'a', ':', '2', '\n']).map OldReader.scp = some [(['k'], ['a'])] :=
  ⟨by decide +kernel, ⟨by decide, by decide⟩, by decide, by decide +kernel⟩

end Hyp.Kaldi
