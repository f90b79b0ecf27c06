import Verif.Keras.EvalLoopProps
import Verif.Misc.TensorsProps
import Verif.Kaldi.BatchProps
import Verif.Folds.FilesProps

/-!
Error branches: theorems added because an edited model survived.
-/

namespace Hyp.Misc

/-- **C150**: vectors and class ids of different number raise -/
theorem C150_by_class_mismatch {β : Type} (z : β) (x : List β) (ids : List Int) (maxLength : Nat) (h : ids.length ≠ x.length) (hp : ∃ k ∈ ids, 0 ≤ k) :
    to3DByClass z x ids maxLength = none := by
  obtain ⟨k, hk, h0⟩ := hp
  unfold to3DByClass
  cases hm : ids.max? with
  | none => rfl
  | some m =>
    have hkm : k ≤ m := by
      rw [List.max?_eq_some_iff] at hm
      exact hm.2 k hk
    simp only [Option.bind_eq_bind, Option.bind_some]
    rw [mapM_eq_none_iff]
    refine ⟨0, by simp; omega, ?_⟩
    unfold pickClass
    rw [if_neg h]; rfl

example : to3DByClass (0 : Nat) [1, 2, 3] [0, 1] 0 = none := C150_by_class_mismatch _ _ _ _ (by decide) ⟨0, by decide, by decide⟩

end Hyp.Misc

namespace Hyp.Keras

/-- **C151**: an evaluation only succeeds if every output of every batch has one entry per sample of the batch -/
theorem C151_output_lengths {ξ γ : Type} (f : List ξ → List (List γ)) (zero : γ) (x : List ξ) (batch : Nat) (outs : List (List γ))
    (h : evalLoop f zero x batch = some outs) (i : Nat) (hi : i * batch < x.length) :
    ∀ v ∈ f ((x.drop (i * batch)).take batch), v.length = min batch (x.length - i * batch) := by
  unfold evalLoop at h
  simp only [Option.bind_eq_bind, Option.bind_eq_some_iff] at h
  obtain ⟨bs, hbs, h⟩ := h
  have hcov := (C151_batches x.length batch).2 bs hbs
  have key : ∀ (l : List (Nat × (Nat × Nat))) (o o' : List (List γ)), l.foldlM (evalStep f zero x) o = some o' → ∀ b ∈ l,
      ∀ v ∈ f ((x.drop b.2.1).take (b.2.2 - b.2.1)), v.length = b.2.2 - b.2.1 := by
    intro l
    induction l with
    | nil => intro o o' _ b hb; simp at hb
    | cons b l ih =>
      intro o o' h c hc
      rw [List.foldlM_cons] at h
      simp only [Option.bind_eq_bind, Option.bind_eq_some_iff] at h
      obtain ⟨o1, h1, h2⟩ := h
      rcases List.mem_cons.1 hc with rfl | hc
      · intro v hv
        unfold evalStep at h1
        simp only [Option.bind_eq_bind, Option.bind_eq_some_iff, Option.guard_eq_some'] at h1
        obtain ⟨_, hlen, hd, hmap, _⟩ := h1
        rw [mapM_eq_some_iff] at hmap
        obtain ⟨j, hj, rfl⟩ := List.mem_iff_getElem.1 hv
        have hj' := Nat.lt_of_lt_of_le hj hlen
        generalize (if c.1 = 0 then o ++ List.replicate (f ((x.drop c.2.1).take (c.2.2 - c.2.1))).length (List.replicate x.length zero) else o) = os at hmap hj'
        generalize f ((x.drop c.2.1).take (c.2.2 - c.2.1)) = r at hmap hj
        have hm : (os[j], r[j]) ∈ os.zip r := by
          rw [List.mem_iff_getElem?]
          refine ⟨j, ?_⟩
          rw [List.getElem?_zip_eq_some]
          exact ⟨List.getElem?_eq_getElem hj', List.getElem?_eq_getElem hj⟩
        have : storeIds os[j] c.2.1 c.2.2 r[j] ∈ hd.map some := by
          rw [← hmap]; exact List.mem_map_of_mem hm
        obtain ⟨w, _, hw⟩ := List.mem_map.1 this
        unfold storeIds at hw
        by_contra hne
        rw [if_neg hne] at hw
        cases hw
      · exact ih o1 o' h2 c hc
  obtain ⟨i', p, hip, hp1, hp2⟩ := hcov.2 (i * batch) hi
  obtain ⟨e1, e2, e3, e4, e5⟩ := hcov.1 i' p hip
  have hb0 : 0 < batch := by omega
  have hii : i' = i := by
    rcases Nat.lt_trichotomy i' i with hlt | heq | hgt
    · have : (i' + 1) * batch ≤ i * batch := Nat.mul_le_mul_right _ hlt
      rw [Nat.add_mul, Nat.one_mul] at this
      omega
    · exact heq
    · have : (i + 1) * batch ≤ i' * batch := Nat.mul_le_mul_right _ hgt
      rw [Nat.add_mul, Nat.one_mul] at this
      omega
  subst hii
  have hlt : i' < bs.length := (List.getElem?_eq_some_iff.1 hip).1
  have hmem : (i', p) ∈ (List.range bs.length).zip bs := by
    rw [List.mem_iff_getElem?]
    exact ⟨i', by rw [List.getElem?_zip_eq_some]; exact ⟨by simp [hlt], hip⟩⟩
  have := key _ _ _ h (i', p) hmem
  dsimp only at this
  have hsub : p.2 - p.1 = min batch (x.length - i' * batch) := by
    rw [e1] at e3 ⊢
    by_cases hlast : p.2 < x.length
    · have e6 := (e5 hlast).1
      rw [Nat.add_mul, Nat.one_mul] at e6
      omega
    · omega
  rw [hsub, e1] at this
  intro v hv
  apply this
  rw [List.take_eq_take_min, List.length_drop] at hv
  exact hv

end Hyp.Keras

namespace Hyp.Kaldi
open Hyp.Text

/-- the chunks that a reader gives, one call of `read` after the other, up to the end of the file or an empty chunk; no call raises -/
inductive ReadsAll (pk : Peek) (D : Decoder) (tr : Nd → Nd) (chunk : Nat) : ArkReader → List (List (Str × Nd)) → Prop
  | eof {r} (h : r.eof = true) : ReadsAll pk D tr chunk r []
  | stop {r r'} (h : r.eof = false) (hr : r.read pk D tr chunk 0 0 = some ([], r')) : ReadsAll pk D tr chunk r []
  | more {r r' c cs rest} (h : r.eof = false) (hr : r.read pk D tr chunk 0 0 = some (c :: cs, r')) (hn : ReadsAll pk D tr chunk r' rest) :
      ReadsAll pk D tr chunk r ((c :: cs) :: rest)

/-- **C23**: a copy that succeeds has read all its chunks without an error -/
theorem C23_copy_reads (pk : Peek) (D : Decoder) (tr : Nd → Nd) (chunk fuel : Nat) (r : ArkReader) (chunks : List (List (Str × Nd)))
    (h : copyLoop pk D tr chunk fuel r = some chunks) : ReadsAll pk D tr chunk r chunks := by
  induction fuel generalizing r chunks with
  | zero => simp [copyLoop] at h
  | succ fuel ih =>
    rw [copyLoop] at h
    cases he : r.eof with
    | true => simp [he] at h; subst h; exact .eof he
    | false =>
      simp only [he, Bool.false_eq_true, if_false] at h
      cases hr : r.read pk D tr chunk 0 0 with
      | none => rw [hr] at h; simp at h
      | some p =>
        obtain ⟨cs, r'⟩ := p
        rw [hr] at h
        cases cs with
        | nil => simp at h; subst h; exact .stop he hr
        | cons c cs =>
          simp only [Option.map_eq_some_iff] at h
          obtain ⟨rest, h1, rfl⟩ := h
          exact .more he hr (ih _ _ h1)

/-- **C24**: the shape of an entry whose range has more rows than the matrix raises, and of one that fits does not -/
theorem C24_shape_raises (rows cols o k : Nat) (hk : 0 < k) : applyRangeToShape [(rows : Int), (cols : Int)] o k = none ↔ rows < o + k := by
  unfold applyRangeToShape
  rw [if_pos (.inr (by omega))]
  simp only
  rw [if_pos (by omega)]
  by_cases h : (rows : Int) - o ≥ k
  · rw [if_pos h]; simp; omega
  · rw [if_neg h]; simp; omega

/-- **C19**: a token with a byte that is not ASCII raises -/
theorem C19_token_ascii (pk : Peek) (a : Bytes) (rest : Bytes) (hb : (32 : UInt8) ∉ a) (hx : ∃ c ∈ a, 128 ≤ c.toNat) :
    readToken pk true (a ++ 32 :: rest) = none := by
  obtain ⟨c, hc, h128⟩ := hx
  have ht : ∀ a : Bytes, (32 : UInt8) ∉ a → tokenLoop (a ++ 32 :: rest) = (a, rest) := by
    intro a
    induction a with
    | nil => intro _; simp [tokenLoop]
    | cons d a ih =>
      intro h
      simp only [List.mem_cons, not_or] at h
      simp [tokenLoop, ih h.2, Ne.symm h.1]
  unfold readToken
  simp only [if_true, ht a hb]
  unfold decodeAscii
  rw [if_neg]
  · rfl
  · intro hall
    rw [List.all_eq_true] at hall
    have := hall c hc
    simp at this
    omega

example (pk : Peek) : readToken pk true ([70, 200] ++ 32 :: [1, 2]) = none := C19_token_ascii pk _ _ (by decide) ⟨200, by decide, by decide⟩

end Hyp.Kaldi

namespace Hyp.Folds

/-- **C153**: the length of an empty list raises, and only that of an empty list -/
theorem C153_len_empty {ν : Type} (l : PList ν) : l.len = none ↔ l.part = [] := by
  unfold PList.len numParts
  cases l.part <;> simp

end Hyp.Folds
