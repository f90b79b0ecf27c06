import Verif.Kaldi.Model
import Verif.NpLemmas

namespace Hyp.Kaldi
open Hyp.Text

/-! ### peek -/

theorem peek_eq_take (pk : Peek) {n : Nat} (hn : n ≤ 2) (s : Bytes) : peek pk n s = s.take n := by
  obtain ⟨t, ht⟩ := pk.isPrefix s
  have hne := pk.nonempty s
  have hpre : (pk.fn s).take n = s.take (min n (pk.fn s).length) := by
    have key : ∀ p : Bytes, p ++ t = s → p.take n = s.take (min n p.length) := by
      rintro p rfl
      rw [List.take_append_of_le_length (by omega)]
      rcases Nat.le_total n p.length with h | h
      · rw [Nat.min_eq_left h]
      · rw [Nat.min_eq_right h, List.take_of_length_le h, List.take_length]
    exact key _ ht
  unfold peek
  simp only
  rw [hpre]
  have hlen : (pk.fn s).length ≤ s.length := by
    have := congrArg List.length ht; simp at this; omega
  split
  · rename_i hlt
    rw [List.length_take] at hlt ⊢
    by_cases hs : s = []
    · subst hs
      have : pk.fn [] = [] := by
        have := pk.isPrefix []; simpa using this
      simp [this]
    · have h1 : 1 ≤ (pk.fn s).length := by
        have := hne hs
        cases hp : pk.fn s with
        | nil => exact absurd hp this
        | cons => simp
      have hm : min (min n (pk.fn s).length) s.length = 1 := by omega
      have hn2 : n = 2 := by omega
      have hm' : min n (pk.fn s).length = 1 := by omega
      rw [hm, hm', hn2]
      obtain ⟨t2, ht2⟩ := pk.isPrefix (s.drop 1)
      have hne2 := pk.nonempty (s.drop 1)
      cases s with
      | nil => exact absurd rfl hs
      | cons a s =>
        cases s with
        | nil => simp at ht2 ⊢; simp [ht2]
        | cons b s =>
          have := hne2 (by simp)
          cases hp : pk.fn (List.drop 1 (a :: b :: s)) with
          | nil => exact absurd hp this
          | cons x xs =>
            rw [hp] at ht2
            simp at ht2
            simp at hp
            simp [hp, ht2.1]
  · rename_i hlt
    rw [List.length_take] at hlt
    have : min n (pk.fn s).length = n := by omega
    rw [this]

/-! ### tokens -/

theorem char_ofNat_toNat {c : Char} (h : c.toNat < 128) : Char.ofNat (UInt8.ofNat c.toNat).toNat = c := by
  have : (UInt8.ofNat c.toNat).toNat = c.toNat := by
    simp only [UInt8.toNat_ofNat']; omega
  rw [this]; simp

theorem decode_encode {t : Str} {b : Bytes} (h : encodeAscii t = some b) : decodeAscii b = some t := by
  unfold encodeAscii at h
  split at h
  · rename_i ht
    obtain rfl := Option.some.inj h
    rw [List.all_eq_true] at ht
    unfold decodeAscii
    rw [if_pos]
    · rw [List.map_map]
      congr 1
      conv_rhs => rw [← List.map_id t]
      apply List.map_congr_left
      intro c hc
      exact char_ofNat_toNat (by simpa using ht c hc)
    · rw [List.all_eq_true]
      intro x hx
      obtain ⟨c, hc, rfl⟩ := List.mem_map.1 hx
      have := ht c hc
      simp only [decide_eq_true_eq] at this ⊢
      simp only [UInt8.toNat_ofNat']; omega
  · exact absurd h (by simp)

theorem encode_ne_blank {t : Str} {b : Bytes} (hs : ' ' ∉ t) (h : encodeAscii t = some b) : (32 : UInt8) ∉ b := by
  unfold encodeAscii at h
  split at h
  · rename_i ht
    obtain rfl := Option.some.inj h
    rw [List.all_eq_true] at ht
    intro hx
    obtain ⟨c, hc, hc2⟩ := List.mem_map.1 hx
    have h128 := ht c hc
    simp only [decide_eq_true_eq] at h128
    have := char_ofNat_toNat h128
    rw [hc2] at this
    apply hs
    rw [← this] at hc
    exact hc
  · exact absurd h (by simp)

theorem tokenLoop_append {b rest : Bytes} (h : (32 : UInt8) ∉ b) :
    tokenLoop (b ++ 32 :: rest) = (b, rest) := by
  induction b with
  | nil => simp [tokenLoop]
  | cons c b ih =>
    have hc : c ≠ 32 := fun e => h (by simp [e])
    have hb : (32 : UInt8) ∉ b := fun e => h (List.mem_cons_of_mem _ e)
    simp [tokenLoop, hc, ih hb]

/-- at a byte other than a blank nothing is skipped, whatever `f.peek` returns. -/
theorem skipBlanks_id (pk : Peek) {s : Bytes} (h : s.head? ≠ some 32) : skipBlanks pk s = s := by
  cases s with
  | nil => rfl
  | cons c s =>
    unfold skipBlanks
    rw [if_neg]
    intro e
    have := pk.isPrefix (c :: s)
    rw [e] at this
    obtain ⟨t, ht⟩ := this
    simp at ht
    apply h
    simp [← ht.1]

theorem writeToken_eq {t : Str} {b : Bytes} (h : writeToken t = some b) :
    ∃ e, b = e ++ [32] ∧ encodeAscii t = some e ∧ (32 : UInt8) ∉ e := by
  unfold writeToken at h
  split at h
  · exact absurd h (by simp)
  · rename_i hb
    obtain ⟨e, he, rfl⟩ := Option.map_eq_some_iff.1 h
    refine ⟨e, rfl, he, encode_ne_blank ?_ he⟩
    simpa using hb

theorem encode_length {t : Str} {e : Bytes} (h : encodeAscii t = some e) : e.length = t.length := by
  unfold encodeAscii at h
  split at h
  · obtain rfl := Option.some.inj h; simp
  · exact absurd h (by simp)

theorem readToken_writeToken (pk : Peek) (binary : Bool) {t : Str} {b : Bytes} (ht : t ≠ [])
    (h : writeToken t = some b) (rest : Bytes) : readToken pk binary (b ++ rest) = some (t, rest) := by
  obtain ⟨e, rfl, he, hb⟩ := writeToken_eq h
  have hne : e ≠ [] := by
    intro h0; have := encode_length he; rw [h0] at this; exact ht (List.length_eq_zero_iff.1 this.symm)
  have hskip : skipBlanks pk (e ++ [32] ++ rest) = e ++ [32] ++ rest := by
    apply skipBlanks_id
    cases e with
    | nil => exact absurd rfl hne
    | cons c e =>
      simp only [List.cons_append, List.head?_cons, ne_eq, Option.some.injEq]
      exact fun h => hb (by simp [h])
  have : (if binary then e ++ [32] ++ rest else skipBlanks pk (e ++ [32] ++ rest)) = e ++ 32 :: rest := by
    rw [hskip]; simp
  unfold readToken
  simp only
  rw [this, tokenLoop_append hb]
  simp [decode_encode he]

/-! ### int32 -/

theorem unpack_pack {v : Int} {b : Bytes} (h : packI32 v = some b) : unpackI32 b = some v := by
  unfold packI32 at h
  split at h
  · rename_i hv
    obtain rfl := Option.some.inj h
    simp only [unpackI32, UInt8.toNat_ofNat', Option.some.injEq]
    have h0 : 0 ≤ v % 4294967296 := Int.emod_nonneg _ (by omega)
    have h1 : v % 4294967296 < 4294967296 := Int.emod_lt_of_pos _ (by omega)
    generalize hn : (v % 4294967296).toNat = n
    have h2 : (n : Int) = v % 4294967296 := by omega
    have h3 : n < 4294967296 := by omega
    have : n % 2 ^ 8 + 256 * (n / 256 % 2 ^ 8) + 65536 * (n / 65536 % 2 ^ 8) +
      16777216 * (n / 16777216 % 2 ^ 8) = n := by omega
    rw [this]
    split <;> omega
  · exact absurd h (by simp)

theorem packI32_length {v : Int} {b : Bytes} (h : packI32 v = some b) : b.length = 4 := by
  unfold packI32 at h
  split at h
  · obtain rfl := Option.some.inj h; rfl
  · exact absurd h (by simp)

theorem pack_unpack {v : Int} {b : Bytes} (h : unpackI32 b = some v) : packI32 v = some b := by
  unfold unpackI32 at h
  split at h
  · rename_i a b c d
    have ha := a.toNat_lt; have hb := b.toNat_lt; have hc := c.toNat_lt; have hd := d.toNat_lt
    simp only [Option.some.injEq] at h
    generalize hn : a.toNat + 256 * b.toNat + 65536 * c.toNat + 16777216 * d.toNat = n at h
    have hn2 : n < 4294967296 := by omega
    have hv : -2147483648 ≤ v ∧ v < 2147483648 := by split at h <;> omega
    have hm : (v % 4294967296).toNat = n := by split at h <;> omega
    unfold packI32
    rw [if_pos hv]
    simp only [hm, Option.some.injEq, List.cons.injEq, and_true]
    refine ⟨?_, ?_, ?_, ?_⟩ <;> (apply UInt8.toNat_inj.1; simp only [UInt8.toNat_ofNat']; omega)
  · exact absurd h (by simp)

theorem packI32_isSome {v : Int} : (packI32 v).isSome ↔ -2147483648 ≤ v ∧ v < 2147483648 := by
  unfold packI32; split <;> simp_all

theorem packI32_nat {n : Nat} (h : n < 2147483648) : ∃ b, packI32 n = some b :=
  Option.isSome_iff_exists.1 (packI32_isSome.2 (by omega))

theorem writeInt32_eq {v : Int} {b : Bytes} (h : writeInt32 v = some b) : ∃ p, b = 4 :: p ∧ packI32 v = some p := by
  obtain ⟨p, hp, rfl⟩ := Option.map_eq_some_iff.1 h
  exact ⟨p, rfl, hp⟩

theorem readInt32_writeInt32 {v : Int} {b : Bytes} (h : writeInt32 v = some b) (rest : Bytes) :
    readInt32 (b ++ rest) = some (v, rest) := by
  obtain ⟨p, rfl, hp⟩ := writeInt32_eq h
  have hl := packI32_length hp
  unfold readInt32
  rw [if_pos (by simp)]
  have h1 : (List.drop 1 (4 :: p ++ rest)).take 4 = p := by
    simp only [List.cons_append, List.drop_succ_cons, List.drop_zero]
    rw [← hl, List.take_left']; rfl
  have h2 : List.drop 5 (4 :: p ++ rest) = rest := by
    simp only [List.cons_append, List.drop_succ_cons]
    rw [← hl, List.drop_left']; rfl
  rw [h1, unpack_pack hp, h2]; rfl

theorem writeInt32_nat {n : Nat} (h : n < 2147483648) : ∃ b, writeInt32 n = some b := by
  obtain ⟨b, hb⟩ := packI32_nat h
  exact ⟨4 :: b, by simp [writeInt32, hb]⟩

/-! ### chunks -/

section
variable {α : Type}

theorem flatten_length {w : Nat} {l : List (List α)} (h : ∀ x ∈ l, x.length = w) :
    l.flatten.length = l.length * w := by
  induction l with
  | nil => simp
  | cons a l ih =>
    simp only [List.flatten_cons, List.length_append, List.length_cons]
    rw [ih (fun x hx => h x (List.mem_cons_of_mem _ hx)), h a (by simp), Nat.add_mul]; omega

theorem flatten_drop {w : Nat} {l : List (List α)} (h : ∀ x ∈ l, x.length = w) (k : Nat) :
    l.flatten.drop (k * w) = (l.drop k).flatten := by
  induction l generalizing k with
  | nil => simp
  | cons a l ih =>
    cases k with
    | zero => simp
    | succ k =>
      have ha := h a (by simp)
      simp only [List.flatten_cons, List.drop_succ_cons]
      rw [← ih (fun x hx => h x (List.mem_cons_of_mem _ hx)) k, Nat.add_mul, Nat.one_mul,
        Nat.add_comm, ← List.drop_drop, ← ha, List.drop_left']
      rfl

theorem flatten_take {w : Nat} {l : List (List α)} (h : ∀ x ∈ l, x.length = w) (k : Nat) :
    l.flatten.take (k * w) = (l.take k).flatten := by
  induction l generalizing k with
  | nil => simp
  | cons a l ih =>
    cases k with
    | zero => simp
    | succ k =>
      have ha := h a (by simp)
      simp only [List.flatten_cons, List.take_succ_cons]
      rw [← ih (fun x hx => h x (List.mem_cons_of_mem _ hx)) k, Nat.add_mul, Nat.one_mul,
        Nat.add_comm, List.take_add, ← ha, List.take_left' rfl, List.drop_left' rfl]

theorem chunks_length (w n : Nat) (s : List α) : (chunks w n s).length = n := by simp [chunks]

theorem chunks_flatten {w : Nat} {l : List (List α)} (h : ∀ x ∈ l, x.length = w) (rest : List α) :
    chunks w l.length (l.flatten ++ rest) = l := by
  apply List.ext_getElem
  · simp [chunks]
  · intro i h1 h2
    simp only [chunks, List.getElem_map, List.getElem_range]
    have hl := flatten_length h
    have h3 : i * w ≤ l.flatten.length := by rw [hl]; exact Nat.mul_le_mul_right _ (by omega)
    rw [List.drop_append_of_le_length h3, flatten_drop h, List.drop_eq_getElem_cons h2]
    have := h l[i] (List.getElem_mem _)
    simp only [List.flatten_cons, List.append_assoc]
    exact List.take_left' this

theorem chunks_flatten' {w n : Nat} {l : List (List α)} (h : ∀ x ∈ l, x.length = w) (hn : l.length = n) :
    chunks w n l.flatten = l := by
  subst hn
  have := chunks_flatten h []
  simpa using this

theorem flatten_chunks {w n : Nat} {s : List α} (h : s.length = n * w) : (chunks w n s).flatten = s := by
  induction n generalizing s with
  | zero => simp only [Nat.zero_mul] at h; simp [chunks, List.length_eq_zero_iff.1 h]
  | succ n ih =>
    have : chunks w (n + 1) s = s.take w :: chunks w n (s.drop w) := by
      simp only [chunks, List.range_succ_eq_map, List.map_cons, List.map_map, Nat.zero_mul, List.drop_zero,
        List.cons.injEq, true_and]
      apply List.map_congr_left
      intro i _
      simp only [Function.comp, List.drop_drop]
      congr 2
      simp only [Nat.succ_eq_add_one, Nat.add_mul]; omega
    rw [this, List.flatten_cons, ih]
    · exact List.take_append_drop w s
    · rw [List.length_drop, h, Nat.add_mul]; omega

theorem mem_chunks_length {w n : Nat} {s : List α} (h : s.length = n * w) : ∀ x ∈ chunks w n s, x.length = w := by
  intro x hx
  obtain ⟨i, hi, rfl⟩ := List.mem_map.1 hx
  rw [List.length_take, List.length_drop, h]
  have hi := List.mem_range.1 hi
  have : (i + 1) * w ≤ n * w := Nat.mul_le_mul_right _ hi
  rw [Nat.add_mul] at this
  omega

theorem reshape_flatten {r c : Nat} {l : List (List α)} (h : ∀ x ∈ l, x.length = c) (hr : l.length = r) :
    reshape r c l.flatten = some l := by
  unfold reshape
  rw [if_pos (by rw [flatten_length h, hr]), chunks_flatten' h hr]

theorem reshape_eq_some {r c : Nat} {l : List α} {m : List (List α)} (h : reshape r c l = some m) :
    m.flatten = l ∧ m.length = r ∧ ∀ x ∈ m, x.length = c := by
  unfold reshape at h
  split at h
  · rename_i hl
    obtain rfl := Option.some.inj h
    exact ⟨flatten_chunks hl, chunks_length _ _ _, mem_chunks_length hl⟩
  · exact absurd h (by simp)

end

theorem frombuffer_flatten {w : Nat} (hw : 0 < w) {l : List Bytes} (h : ∀ x ∈ l, x.length = w) :
    frombuffer w l.flatten = some l := by
  unfold frombuffer
  have hl := flatten_length h
  rw [hl]
  rw [if_pos (by simp), Nat.mul_div_cancel _ hw, chunks_flatten' h rfl]

theorem frombuffer_eq_some {w : Nat} {b : Bytes} {l : List Bytes} (h : frombuffer w b = some l) :
    l.flatten = b ∧ ∀ x ∈ l, x.length = w := by
  unfold frombuffer at h
  split at h
  · rename_i hl
    obtain rfl := Option.some.inj h
    have : b.length = b.length / w * w := by
      have := Nat.div_add_mod b.length w
      rw [hl, Nat.mul_comm] at this; omega
    exact ⟨flatten_chunks this, mem_chunks_length this⟩
  · exact absurd h (by simp)

theorem natOf_nat (n : Nat) : natOf (n : Int) = some n := by simp [natOf]

end Hyp.Kaldi
