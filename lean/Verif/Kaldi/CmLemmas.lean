import Verif.Kaldi.Props

namespace Hyp.Kaldi
open Hyp.Text

/-! ### transpose -/

section
variable {α : Type} [Inhabited α]

theorem filterMap_col {n i : Nat} (hi : i < n) {cs : List (List α)} (h : ∀ x ∈ cs, x.length = n) :
    cs.filterMap (fun c => c[i]?) = cs.map (fun c => c.getD i default) := by
  induction cs with
  | nil => rfl
  | cons a cs ih =>
    have ha := h a (by simp)
    rw [List.filterMap_cons, ih (fun x hx => h x (List.mem_cons_of_mem _ hx)), List.map_cons]
    rw [List.getElem?_eq_getElem (by omega)]
    simp [List.getD, List.getElem?_eq_getElem (show i < a.length by omega)]

theorem transposeL_eq {n : Nat} {cs : List (List α)} (h : ∀ x ∈ cs, x.length = n) :
    transposeL n cs = (List.range n).map (fun i => cs.map (fun c => c.getD i default)) := by
  unfold transposeL
  apply List.map_congr_left
  intro i hi
  exact filterMap_col (List.mem_range.1 hi) h

theorem transposeL_length {n : Nat} {cs : List (List α)} : (transposeL n cs).length = n := by simp [transposeL]

theorem mem_transposeL {n : Nat} {cs : List (List α)} (h : ∀ x ∈ cs, x.length = n) :
    ∀ x ∈ transposeL n cs, x.length = cs.length := by
  rw [transposeL_eq h]
  intro x hx
  obtain ⟨i, _, rfl⟩ := List.mem_map.1 hx
  simp

theorem transpose_transpose {n r : Nat} {cs : List (List α)} (h : ∀ x ∈ cs, x.length = n) (hr : cs.length = r) :
    transposeL r (transposeL n cs) = cs := by
  subst hr
  rw [transposeL_eq (mem_transposeL h), transposeL_eq h]
  apply List.ext_getElem
  · simp
  · intro i h1 h2
    simp only [List.getElem_map, List.getElem_range, List.map_map]
    have hl := h cs[i] (List.getElem_mem _)
    apply List.ext_getElem
    · simp [hl]
    · intro j h3 h4
      simp [List.getD, List.getElem?_eq_getElem h2, List.getElem?_eq_getElem h4]

theorem transposeL_slice {n : Nat} {cs : List (List α)} (h : ∀ x ∈ cs, x.length = n) (off k : Nat) :
    transposeL n ((cs.drop off).take k) = (transposeL n cs).map (fun c => (c.drop off).take k) := by
  rw [transposeL_eq (fun x hx => h x (List.mem_of_mem_drop (List.mem_of_mem_take hx))), transposeL_eq h]
  simp only [List.map_map, List.map_take, List.map_drop, Function.comp_def]

theorem mem_transposeL_mem {n : Nat} {cs : List (List α)} {P : α → Prop} (h : ∀ x ∈ cs, ∀ e ∈ x, P e) :
    ∀ x ∈ transposeL n cs, ∀ e ∈ x, P e := by
  intro x hx e he
  unfold transposeL at hx
  obtain ⟨i, _, rfl⟩ := List.mem_map.1 hx
  obtain ⟨c, hc, hci⟩ := List.mem_filterMap.1 he
  exact h c hc e (List.mem_of_getElem? hci)

end

/-! ### header -/

theorem unpackHead_pack {h : CmHead} {b : Bytes} (hm : h.mn.length = 4) (hr : h.rg.length = 4)
    (hp : packHead h = some b) : unpackHead b = some h ∧ b.length = 20 := by
  unfold packHead at hp
  simp only [Option.bind_eq_bind, Option.bind_eq_some_iff] at hp
  obtain ⟨f, hf, r, hr', c, hc, hp⟩ := hp
  simp only [Option.pure_def, Option.some.injEq] at hp
  have lf := packI32_length hf
  have lr := packI32_length hr'
  have lc := packI32_length hc
  have hlen : b.length = 20 := by rw [← hp]; simp [*]
  refine ⟨?_, hlen⟩
  have e1 : b.take 4 = f := by
    rw [← hp]; simp only [List.append_assoc]; exact List.take_left' lf
  have e2 : (b.drop 12).take 4 = r := by
    rw [← hp]
    rw [show f ++ h.mn ++ h.rg ++ r ++ c = (f ++ h.mn ++ h.rg) ++ (r ++ c) by simp,
      List.drop_left' (by simp [*]), List.take_left' lr]
  have e3 : (b.drop 16).take 4 = c := by
    rw [← hp]
    rw [show f ++ h.mn ++ h.rg ++ r ++ c = (f ++ h.mn ++ h.rg ++ r) ++ c by simp,
      List.drop_left' (by simp [*])]
    exact List.take_of_length_le (by omega)
  have e4 : (b.drop 4).take 4 = h.mn := by
    rw [← hp]
    rw [show f ++ h.mn ++ h.rg ++ r ++ c = f ++ (h.mn ++ (h.rg ++ r ++ c)) by simp,
      List.drop_left' lf, List.take_left' hm]
  have e5 : (b.drop 8).take 4 = h.rg := by
    rw [← hp]
    rw [show f ++ h.mn ++ h.rg ++ r ++ c = (f ++ h.mn) ++ (h.rg ++ (r ++ c)) by simp,
      List.drop_left' (by simp [*]), List.take_left' hr]
  unfold unpackHead
  rw [e1, e2, e3, e4, e5, unpack_pack hf, unpack_pack hr', unpack_pack hc]
  simp only [Option.bind_eq_bind, Option.bind_some, natOf_nat, hlen, if_true]
  rfl

theorem packHead_unpack {h : CmHead} {b : Bytes} (hu : unpackHead b = some h) :
    packHead h = some b ∧ h.mn.length = 4 ∧ h.rg.length = 4 ∧ b.length = 20 := by
  unfold unpackHead at hu
  simp only [Option.bind_eq_bind, Option.bind_eq_some_iff] at hu
  obtain ⟨f, hf, r, hr, c, hc, r', hr', c', hc', hu⟩ := hu
  split at hu
  · rename_i hlen
    simp only [Option.pure_def, Option.some.injEq] at hu
    subst hu
    have hrr : (r' : Int) = r := by
      unfold natOf at hr'; split at hr'
      · have := Option.some.inj hr'; omega
      · exact absurd hr' (by simp)
    have hcc : (c' : Int) = c := by
      unfold natOf at hc'; split at hc'
      · have := Option.some.inj hc'; omega
      · exact absurd hc' (by simp)
    refine ⟨?_, by simp [hlen], by simp [hlen], hlen⟩
    unfold packHead
    simp only [hrr, hcc, pack_unpack hf, pack_unpack hr, pack_unpack hc, Option.bind_eq_bind, Option.bind_some]
    simp only [Option.pure_def, Option.some.injEq]
    have s1 : b = b.take 4 ++ b.drop 4 := (List.take_append_drop 4 b).symm
    have s2 : b.drop 4 = (b.drop 4).take 4 ++ b.drop 8 := by
      conv_lhs => rw [← List.take_append_drop 4 (b.drop 4)]
      rw [List.drop_drop]
    have s3 : b.drop 8 = (b.drop 8).take 4 ++ b.drop 12 := by
      conv_lhs => rw [← List.take_append_drop 4 (b.drop 8)]
      rw [List.drop_drop]
    have s4 : b.drop 12 = (b.drop 12).take 4 ++ b.drop 16 := by
      conv_lhs => rw [← List.take_append_drop 4 (b.drop 12)]
      rw [List.drop_drop]
    have s5 : b.drop 16 = (b.drop 16).take 4 := by
      rw [List.take_of_length_le]; simp [hlen]
    conv_rhs => rw [s1, s2, s3, s4, s5]
    simp only [List.append_assoc]
  · exact absurd hu (by simp)

theorem packHead_some {h : CmHead} (hf : h.fmt = 1 ∨ h.fmt = 2 ∨ h.fmt = 3) (hr : h.rows < 2147483648)
    (hc : h.cols < 2147483648) : ∃ b, packHead h = some b := by
  obtain ⟨r, hr'⟩ := packI32_nat hr
  obtain ⟨c, hc'⟩ := packI32_nat hc
  obtain ⟨f, hf'⟩ := Option.isSome_iff_exists.1 (packI32_isSome.2 (show -2147483648 ≤ h.fmt ∧ h.fmt < 2147483648 by omega))
  exact ⟨_, by unfold packHead; simp only [hf', hr', hc', Option.bind_eq_bind, Option.bind_some]; rfl⟩

/-- the first four bytes of a packed header are the packed format. -/
theorem packHead_take {h : CmHead} {b : Bytes} (hp : packHead h = some b) :
    packI32 h.fmt = some (b.take 4) ∧ b = b.take 4 ++ b.drop 4 := by
  unfold packHead at hp
  simp only [Option.bind_eq_bind, Option.bind_eq_some_iff] at hp
  obtain ⟨f, hf, r, hr', c, hc, hp⟩ := hp
  simp only [Option.pure_def, Option.some.injEq] at hp
  have lf := packI32_length hf
  refine ⟨?_, (List.take_append_drop 4 b).symm⟩
  rw [hf, ← hp]
  simp only [List.append_assoc]
  rw [List.take_left' lf]

/-! ### column reads -/

theorem readCols_eq {rows off len left : Nat} (hsum : off + len + left = rows) (rest : Bytes) {cs : List Bytes}
    (h : ∀ c ∈ cs, c.length = rows) :
    readCols off len left cs.length (cs.flatten ++ rest) = ((cs.map (fun c => (c.drop off).take len)).flatten, rest) := by
  induction cs with
  | nil => simp [readCols]
  | cons c cs ih =>
    have hc := h c (by simp)
    have e1 : (List.drop off ((c :: cs).flatten ++ rest)).take len = (c.drop off).take len := by
      rw [List.flatten_cons, List.append_assoc, List.drop_append_of_le_length (by omega),
        List.take_append_of_le_length (by rw [List.length_drop]; omega)]
    have e2 : ((List.drop off ((c :: cs).flatten ++ rest)).drop len).drop left = cs.flatten ++ rest := by
      rw [List.drop_drop, List.drop_drop, List.flatten_cons, List.append_assoc]
      exact List.drop_left' (by omega)
    simp only [List.length_cons, readCols]
    rw [e1, e2, ih (fun x hx => h x (List.mem_cons_of_mem _ hx))]
    simp

end Hyp.Kaldi
