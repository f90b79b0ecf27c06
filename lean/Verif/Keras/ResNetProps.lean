import Verif.Keras.ResNetLemmas
import Mathlib.Data.Rat.Floor
import Mathlib.Tactic.FieldSimp
import Mathlib.Tactic.IntervalCases

/-!
C170: the frames that a `ResNetV1` sees and the context that it reports.
-/

namespace Hyp.Keras.ResNet
open Hyp.Keras.Tdnn (NumOr addSeq)

theorem Window.comp_eq {L R1 lo1 hi1 R2 lo2 hi2 R lo hi : Nat} {n1 n2 n : Poly} (hR1 : 0 < R1) (hR2 : 0 < R2)
    (h1 : Window L R1 lo1 hi1 n1) (h2 : Window (up L R1) R2 lo2 hi2 n2) (hR : R = R1 * R2) (hlo : lo = lo1 + R1 * lo2) (hhi : hi = hi1 + R1 * hi2)
    (hn : ∀ F P z zp x, x.length = L → (n1 F P z zp x).bind (n2 F P z zp) = n F P z zp x) : Window L R lo hi n := by
  subst hR hlo hhi
  exact (h1.comp hR1 hR2 h2).congr hn

theorem Window.then_pt {L R lo hi : Nat} {n1 n2 n : Poly} (hR : 0 < R) (h1 : Window L R lo hi n1) (h2 : Window (up L R) 1 0 0 n2)
    (hn : ∀ F P z zp x, x.length = L → (n1 F P z zp x).bind (n2 F P z zp) = n F P z zp x) : Window L R lo hi n :=
  h1.comp_eq hR one_pos h2 (Nat.mul_one R).symm (by rw [Nat.mul_zero, Nat.add_zero]) (by rw [Nat.mul_zero, Nat.add_zero]) hn

theorem Window.after_pt {L R lo hi : Nat} {n1 n2 n : Poly} (hR : 0 < R) (h1 : Window L 1 0 0 n1) (h2 : Window L R lo hi n2)
    (hn : ∀ F P z zp x, x.length = L → (n1 F P z zp x).bind (n2 F P z zp) = n F P z zp x) : Window L R lo hi n :=
  h1.comp_eq one_pos hR (by rw [up_one]; exact h2) (Nat.one_mul R).symm (by rw [Nat.one_mul, Nat.zero_add]) (by rw [Nat.one_mul, Nat.zero_add]) hn

theorem bnIf_window (L : Nat) (c : Cfg) (g : (F : Type) → Params F → F → F) (hg : g Nat sumP = id) :
    Window L 1 0 0 (fun F P _ _ x => some (bnIf c (g F P) x)) := by
  refine Window.congr ?_ (map_window L (fun F P => if c.useBn then g F P else id) ?_)
  · intro F P z zp x _
    unfold bnIf
    split_ifs <;> simp
  · intro v
    rw [hg]
    split_ifs <;> exact Iff.rfl

theorem act_window (L : Nat) : Window L 1 0 0 (fun F P _ _ x => some (x.map P.act)) := map_window L (fun _ P => P.act) (fun _ => Iff.rfl)

theorem main_window (c : Cfg) (b i s : Nat) {L : Nat} (hL : 0 < L) (hk : 0 < c.kernel) (hs : 0 < s) :
    ∃ lo hi, lo + hi = (c.kernel - 1) + s * (c.kernel - 1) ∧ 2 * lo ≤ lo + hi ∧
      Window L s lo hi (fun F P z _ x => some (conv c.kernel 1 z (P.conv2 b i) (bnIf c (P.bn2 b i) ((conv c.kernel s z (P.conv1 b i) x).map P.act)))) := by
  have f1 := front_le hL hk hs
  have f2 := front_le (up_pos hL hs) hk one_pos
  have w1 := conv_window hL hk hs (fun _ z _ => z) (fun _ P => P.conv1 b i) (fun _ => rfl) rfl
  have w2 := act_window (up L s)
  have w3 := bnIf_window (up L s) c (fun _ P => P.bn2 b i) rfl
  have w4 := conv_window (up_pos hL hs) hk one_pos (fun _ z _ => z) (fun _ P => P.conv2 b i) (fun _ => rfl) rfl
  refine ⟨front L c.kernel s + s * front (up L s) c.kernel 1, (c.kernel - 1 - front L c.kernel s) + s * (c.kernel - 1 - front (up L s) c.kernel 1), ?_, ?_, ?_⟩
  · have e : s * front (up L s) c.kernel 1 + s * (c.kernel - 1 - front (up L s) c.kernel 1) = s * (c.kernel - 1) := by
      rw [← Nat.mul_add]; congr 1; omega
    omega
  · have e := Nat.mul_le_mul_left s (show front (up L s) c.kernel 1 ≤ c.kernel - 1 - front (up L s) c.kernel 1 by omega)
    omega
  · have a1 := w1.then_pt (n := fun F P z zp x => some ((conv c.kernel s z (P.conv1 b i) x).map P.act)) hs w2 (fun _ _ _ _ _ _ => rfl)
    have a2 := a1.then_pt (n := fun F P z zp x => some (bnIf c (P.bn2 b i) ((conv c.kernel s z (P.conv1 b i) x).map P.act))) hs w3 (fun _ _ _ _ _ _ => rfl)
    exact a2.comp_eq hs one_pos w4 (Nat.mul_one s).symm rfl rfl (fun _ _ _ _ _ _ => rfl)

theorem resBlock_window (c : Cfg) (b i s : Nat) (proj : Bool) {L : Nat} (hL : 0 < L) (hk : 0 < c.kernel) (hs : 0 < s) (hp : proj = true ∨ s = 1) :
    ∃ lo hi, lo + hi = (c.kernel - 1) + s * (c.kernel - 1) ∧ 2 * lo ≤ lo + hi ∧
      Window L s lo hi (fun F P z _ x => resBlock c P z b i s proj x) := by
  obtain ⟨lo, hi, h1, h2, hm⟩ := main_window c b i s hL hk hs
  refine ⟨lo, hi, h1, h2, ?_⟩
  have hsc : Window L s 0 0 (fun F P z _ x => some (if proj then conv 1 s z (fun w => P.short b i (w.headD z)) x else x)) := by
    rcases Bool.eq_false_or_eq_true proj with h | h
    · subst h
      constructor
      · intro F P z zp
        have fr : front L 1 s = 0 := by have := front_le hL one_pos hs; omega
        have g : ∀ x : List F, x.length = L → ∀ t, t < up L s → (conv 1 s z (fun w => P.short b i (w.headD z)) x)[t]? = some (P.short b i (x.getD (t * s) z)) := by
          intro x hx t ht
          rw [conv_get _ _ _ _ _ (by rw [hx]; exact ht), hx, fr]
          simp
        constructor
        · intro x hx
          exact ⟨_, rfl, by simp only [if_true]; rw [conv_length, hx]⟩
        · intro x y a b' hx hy ea eb t ht hq
          obtain rfl := Option.some.inj ea
          obtain rfl := Option.some.inj eb
          simp only [if_true]
          rw [g x hx t ht, g y hy t ht, List.getD_eq_getElem?_getD, List.getD_eq_getElem?_getD, hq (t * s) (by omega) (by omega)]
      · have fr : front L 1 s = 0 := by have := front_le hL one_pos hs; omega
        have g : ∀ x : List Nat, x.length = L → ∀ t, t < up L s → (conv 1 s 0 (fun w => sumP.short b i (w.headD 0)) x).getD t 0 = x.getD (t * s) 0 := by
          intro x hx t ht
          rw [List.getD_eq_getElem?_getD, conv_get _ _ _ _ _ (by rw [hx]; exact ht), hx, fr]
          simp [sumP]
        constructor
        · intro x a hx ea t ht hne
          obtain rfl := Option.some.inj ea
          simp only [if_true]
          rw [g x hx t (by rw [lt_up hs]; omega)]
          simpa using hne
        · intro x a hx ea t ht hlo hne
          obtain rfl := Option.some.inj ea
          simp only [if_true]
          rw [g x hx t ht]
          simpa using hne
        · intro x a hx ea h0 t
          obtain rfl := Option.some.inj ea
          simp only [if_true]
          rcases Nat.lt_or_ge t (up L s) with ht | ht
          · rw [g x hx t ht]; exact h0 _
          · rw [List.getD_eq_getElem?_getD, List.getElem?_eq_none (by rw [conv_length, hx]; exact ht)]; rfl
    · subst h
      obtain rfl : s = 1 := by simpa using hp
      exact Window.congr (fun F P z zp x _ => by simp) (map_window L (fun F _ => id) (fun _ => Iff.rfl))
  have hadd := add_window hm hsc
  have w0 := bnIf_window L c (fun _ P => P.bn1 b i) rfl
  have a1 := w0.after_pt (n := fun F P z zp x => addSeq P.add
      (conv c.kernel 1 z (P.conv2 b i) (bnIf c (P.bn2 b i) ((conv c.kernel s z (P.conv1 b i) (bnIf c (P.bn1 b i) x)).map P.act)))
      (if proj then conv 1 s z (fun w => P.short b i (w.headD z)) (bnIf c (P.bn1 b i) x) else bnIf c (P.bn1 b i) x)) hs hadd (fun _ _ _ _ _ _ => rfl)
  refine a1.then_pt hs (act_window _) ?_
  intro F P z zp x _
  unfold resBlock
  rw [Option.map_eq_bind]
  rfl

/-- stride of a sub-block -/
def strideOf (c : Cfg) (p : Nat × Nat) : Nat := if 0 < p.1 ∧ p.2 = 0 then c.ibStride else 1

/-- product of the strides -/
def ratio (c : Cfg) : List (Nat × Nat) → Nat
  | [] => 1
  | p :: l => strideOf c p * ratio c l

/-- frames seen besides one, in frames of the input of the list -/
def spanOf (c : Cfg) : List (Nat × Nat) → Nat
  | [] => 0
  | p :: l => (c.kernel - 1) + strideOf c p * (c.kernel - 1) + strideOf c p * spanOf c l

theorem ratio_pos {c : Cfg} (hib : 0 < c.ibStride) (l : List (Nat × Nat)) : 0 < ratio c l := by
  induction l with
  | nil => exact one_pos
  | cons p l ih =>
    refine Nat.mul_pos ?_ ih
    unfold strideOf
    split_ifs
    · exact hib
    · exact one_pos

/-- the frames of the loop over sub-blocks, without the context -/
def blocksOn (c : Cfg) (filters : List Nat) (l : List (Nat × Nat)) : Poly := fun _ P z _ x =>
  l.foldlM (fun h p => resBlock c P z p.1 p.2 (strideOf c p) (decide (0 < p.1 ∧ p.2 = 0 ∧ filters.getD p.1 0 ≠ filters.getD (p.1 - 1) 0)) h) x

theorem blocks_window (c : Cfg) (filters : List Nat) (hk : 0 < c.kernel) (hib : 0 < c.ibStride) (l : List (Nat × Nat))
    (hp : ∀ p ∈ l, strideOf c p = 1 ∨ filters.getD p.1 0 ≠ filters.getD (p.1 - 1) 0) {L : Nat} (hL : 0 < L) :
    ∃ lo hi, lo + hi = spanOf c l ∧ 2 * lo ≤ lo + hi ∧ Window L (ratio c l) lo hi (blocksOn c filters l) := by
  induction l generalizing L with
  | nil =>
    exact ⟨0, 0, rfl, le_rfl, Window.congr (fun F P z zp x _ => by simp [blocksOn]) (map_window L (fun F _ => id) (fun _ => Iff.rfl))⟩
  | cons p l ih =>
    have hs : 0 < strideOf c p := by
      unfold strideOf
      split_ifs
      · exact hib
      · exact one_pos
    have hproj : decide (0 < p.1 ∧ p.2 = 0 ∧ filters.getD p.1 0 ≠ filters.getD (p.1 - 1) 0) = true ∨ strideOf c p = 1 := by
      rcases hp p List.mem_cons_self with h | h
      · exact Or.inr h
      · by_cases hq : 0 < p.1 ∧ p.2 = 0
        · exact Or.inl (by simp only [decide_eq_true_eq]; exact ⟨hq.1, hq.2, h⟩)
        · right; unfold strideOf; rw [if_neg hq]
    obtain ⟨lo1, hi1, e1, e2, w1⟩ := resBlock_window c p.1 p.2 (strideOf c p) _ hL hk hs hproj
    obtain ⟨lo2, hi2, e3, e4, w2⟩ := ih (fun q hq => hp q (List.mem_cons_of_mem _ hq)) (up_pos hL hs)
    refine ⟨lo1 + strideOf c p * lo2, hi1 + strideOf c p * hi2, ?_, ?_, ?_⟩
    · have : strideOf c p * lo2 + strideOf c p * hi2 = strideOf c p * spanOf c l := by rw [← Nat.mul_add, e3]
      show _ = (c.kernel - 1) + strideOf c p * (c.kernel - 1) + strideOf c p * spanOf c l
      omega
    · have := Nat.mul_le_mul_left (strideOf c p) (show lo2 ≤ hi2 by omega)
      omega
    · refine w1.comp_eq hs (ratio_pos hib l) w2 rfl rfl rfl ?_
      intro F P z zp x _
      unfold blocksOn
      rw [List.foldlM_cons]
      rfl

/-- the fully connected layers -/
theorem fc_window (c : Cfg) (l : List Nat) (L : Nat) : Window L 1 0 0 (fun F P _ _ x => some (l.foldl (fcLayer c P) x)) := by
  induction l generalizing L with
  | nil => exact Window.congr (fun F P z zp x _ => by simp) (map_window L (fun F _ => id) (fun _ => Iff.rfl))
  | cons i l ih =>
    have a1 : Window L 1 0 0 (fun F P _ _ x => some (fcLayer c P x i)) := by
      have w1 := bnIf_window L c (fun _ P => P.bnFc i) rfl
      have w2 := w1.then_pt (n := fun F P z zp x => some ((bnIf c (P.bnFc i) x).map (P.fc i))) one_pos
        (map_window _ (fun _ P => P.fc i) (fun _ => Iff.rfl)) (fun _ _ _ _ _ _ => rfl)
      exact w2.comp_eq one_pos one_pos (act_window _) rfl rfl rfl (fun _ _ _ _ _ _ => rfl)
    exact a1.comp_eq one_pos one_pos (ih _) rfl rfl rfl (fun _ _ _ _ _ _ => rfl)

/-- the frames of the whole network -/
def framesOf (c : Cfg) (filters subs : List Nat) : Poly := fun F P z zp x =>
  ((blocksOn c filters (subOrder subs) F P z zp
    (conv c.poolSize c.poolStride zp P.pool ((conv c.inKernel c.inStride z P.conv0 (bnIf c P.bnIn x)).map P.act))).map
      (fun h => (bnIf c P.bnOut ((List.range (c.fcLayers - 1)).foldl (fcLayer c P) h)).map P.out))

theorem frames_window (c : Cfg) (filters subs : List Nat) (hk : 0 < c.kernel) (hib : 0 < c.ibStride) (hik : 0 < c.inKernel) (his : 0 < c.inStride)
    (hpk : 0 < c.poolSize) (hps : 0 < c.poolStride) (hp : ∀ p ∈ subOrder subs, strideOf c p = 1 ∨ filters.getD p.1 0 ≠ filters.getD (p.1 - 1) 0)
    {L : Nat} (hL : 0 < L) : ∃ lo hi, lo + hi = (c.inKernel - 1) + c.inStride * (c.poolSize - 1) + c.inStride * c.poolStride * spanOf c (subOrder subs) ∧
      2 * lo ≤ lo + hi ∧ Window L (c.inStride * c.poolStride * ratio c (subOrder subs)) lo hi (framesOf c filters subs) := by
  have hL2 := up_pos (up_pos hL his) hps
  obtain ⟨lo2, hi2, e3, e4, w5⟩ := blocks_window c filters hk hib (subOrder subs) hp hL2
  have f1 := front_le hL hik his
  have f2 := front_le (up_pos hL his) hpk hps
  have w1 := bnIf_window L c (fun _ P => P.bnIn) rfl
  have w2 := conv_window hL hik his (fun _ z _ => z) (fun _ P => P.conv0) (fun _ => rfl) rfl
  have w3 := act_window (up L c.inStride)
  have w4 := conv_window (up_pos hL his) hpk hps (fun _ _ zp => zp) (fun _ P => P.pool) (fun _ => rfl) rfl
  have a1 := w1.after_pt (n := fun F P z zp x => some (conv c.inKernel c.inStride z P.conv0 (bnIf c P.bnIn x))) his w2
    (fun _ _ _ _ _ _ => rfl)
  have a2 := a1.then_pt (n := fun F P z zp x => some ((conv c.inKernel c.inStride z P.conv0 (bnIf c P.bnIn x)).map P.act)) his w3
    (fun _ _ _ _ _ _ => rfl)
  have a3 := a2.comp_eq (n := fun F P z zp x => some (conv c.poolSize c.poolStride zp P.pool ((conv c.inKernel c.inStride z P.conv0 (bnIf c P.bnIn x)).map P.act)))
    his hps w4 rfl rfl rfl (fun _ _ _ _ _ _ => rfl)
  have hG := Nat.mul_pos his hps
  have a4 := a3.comp_eq (n := fun F P z zp x => blocksOn c filters (subOrder subs) F P z zp
    (conv c.poolSize c.poolStride zp P.pool ((conv c.inKernel c.inStride z P.conv0 (bnIf c P.bnIn x)).map P.act))) hG (ratio_pos hib _)
    (by rw [← up_up L his hps]; exact w5) rfl rfl rfl (fun _ _ _ _ _ _ => rfl)
  have w6 : ∀ M, Window M 1 0 0 (fun F P _ _ h => some ((bnIf c P.bnOut ((List.range (c.fcLayers - 1)).foldl (fcLayer c P) h)).map P.out)) := by
    intro M
    have b1 := (fc_window c (List.range (c.fcLayers - 1)) M).comp_eq
      (n := fun F P _ _ h => some (bnIf c P.bnOut ((List.range (c.fcLayers - 1)).foldl (fcLayer c P) h))) one_pos one_pos
      (bnIf_window _ c (fun _ P => P.bnOut) rfl) rfl rfl rfl (fun _ _ _ _ _ _ => rfl)
    exact b1.comp_eq one_pos one_pos (map_window _ (fun _ P => P.out) (fun _ => Iff.rfl)) rfl rfl rfl (fun _ _ _ _ _ _ => rfl)
  refine ⟨front L c.inKernel c.inStride + c.inStride * front (up L c.inStride) c.poolSize c.poolStride + c.inStride * c.poolStride * lo2,
    (c.inKernel - 1 - front L c.inKernel c.inStride) + c.inStride * (c.poolSize - 1 - front (up L c.inStride) c.poolSize c.poolStride) +
      c.inStride * c.poolStride * hi2, ?_, ?_, a4.then_pt (Nat.mul_pos hG (ratio_pos hib _)) (w6 _) ?_⟩
  · have e1 : c.inStride * front (up L c.inStride) c.poolSize c.poolStride + c.inStride * (c.poolSize - 1 - front (up L c.inStride) c.poolSize c.poolStride) =
        c.inStride * (c.poolSize - 1) := by rw [← Nat.mul_add]; congr 1; omega
    have e2 : c.inStride * c.poolStride * lo2 + c.inStride * c.poolStride * hi2 = c.inStride * c.poolStride * spanOf c (subOrder subs) := by
      rw [← Nat.mul_add, e3]
    omega
  · have e1 := Nat.mul_le_mul_left c.inStride (show front (up L c.inStride) c.poolSize c.poolStride ≤ c.poolSize - 1 - front (up L c.inStride) c.poolSize c.poolStride by omega)
    have e2 := Nat.mul_le_mul_left (c.inStride * c.poolStride) (show lo2 ≤ hi2 by omega)
    omega
  · intro F P z zp x _
    unfold framesOf
    cases blocksOn c filters (subOrder subs) F P z zp
      (conv c.poolSize c.poolStride zp P.pool ((conv c.inKernel c.inStride z P.conv0 (bnIf c P.bnIn x)).map P.act)) <;> rfl

/-! ### Sums over the blocks -/

theorem ratio_append (c : Cfg) (l1 l2 : List (Nat × Nat)) : ratio c (l1 ++ l2) = ratio c l1 * ratio c l2 := by
  induction l1 with
  | nil => simp [ratio]
  | cons p l ih => rw [List.cons_append, ratio, ih, ratio, Nat.mul_assoc]

theorem spanOf_append (c : Cfg) (l1 l2 : List (Nat × Nat)) : spanOf c (l1 ++ l2) = spanOf c l1 + ratio c l1 * spanOf c l2 := by
  induction l1 with
  | nil => simp [ratio, spanOf]
  | cons p l ih => rw [List.cons_append, spanOf, ih, spanOf, ratio]; ring

/-- contexts added by a list of sub-blocks when the lengths divide exactly: one frame before them is `D` frames of the input -/
def ctxSum (c : Cfg) : Nat → List (Nat × Nat) → Nat
  | _, [] => 0
  | D, p :: l => D * (c.kernel - 1) / 2 + ctxSum c (D * strideOf c p) l

theorem ctxSum_append (c : Cfg) (D : Nat) (l1 l2 : List (Nat × Nat)) : ctxSum c D (l1 ++ l2) = ctxSum c D l1 + ctxSum c (D * ratio c l1) l2 := by
  induction l1 generalizing D with
  | nil => simp [ratio, ctxSum]
  | cons p l ih => rw [List.cons_append, ctxSum, ih, ctxSum, ratio, Nat.mul_assoc]; omega

theorem ones (c : Cfg) (l : List (Nat × Nat)) (h : ∀ p ∈ l, strideOf c p = 1) (D : Nat) :
    ratio c l = 1 ∧ spanOf c l = l.length * (2 * (c.kernel - 1)) ∧ ctxSum c D l = l.length * (D * (c.kernel - 1) / 2) := by
  induction l generalizing D with
  | nil => simp [ratio, spanOf, ctxSum]
  | cons p l ih =>
    have hp := h p List.mem_cons_self
    obtain ⟨h1, h2, h3⟩ := ih (fun q hq => h q (List.mem_cons_of_mem _ hq)) (D * 1)
    rw [ratio, spanOf, ctxSum, hp, h1, h2, h3, List.length_cons, Nat.mul_one]
    refine ⟨rfl, by ring, by ring⟩

/-- block `b` of `n` sub-blocks -/
theorem block_sums (c : Cfg) (b n : Nat) (hn : 1 ≤ n) (D : Nat) :
    ratio c ((List.range n).map (fun i => (b, i))) = (if b = 0 then 1 else c.ibStride) ∧
    spanOf c ((List.range n).map (fun i => (b, i))) = (c.kernel - 1) + (2 * n - 1) * (c.kernel - 1) * (if b = 0 then 1 else c.ibStride) ∧
    ctxSum c D ((List.range n).map (fun i => (b, i))) = D * (c.kernel - 1) / 2 + (n - 1) * (D * (if b = 0 then 1 else c.ibStride) * (c.kernel - 1) / 2) := by
  obtain ⟨n, rfl⟩ : ∃ k, n = k + 1 := ⟨n - 1, by omega⟩
  rw [List.range_succ_eq_map, List.map_cons, List.map_map]
  have hst : strideOf c (b, 0) = if b = 0 then 1 else c.ibStride := by
    unfold strideOf
    rcases Nat.eq_zero_or_pos b with h | h
    · simp [h]
    · rw [if_pos ⟨h, rfl⟩, if_neg (by omega)]
  have ht : ∀ p ∈ (List.range n).map ((fun i => (b, i)) ∘ Nat.succ), strideOf c p = 1 := by
    intro p hp
    obtain ⟨i, _, rfl⟩ := List.mem_map.1 hp
    unfold strideOf
    rw [if_neg]
    rintro ⟨_, h⟩
    exact absurd h (by simp)
  obtain ⟨h1, h2, h3⟩ := ones c _ ht (D * (if b = 0 then 1 else c.ibStride))
  rw [ratio, spanOf, ctxSum, hst, h1, h2, h3, List.length_map, List.length_range]
  refine ⟨Nat.mul_one _, ?_, ?_⟩
  · rw [show 2 * (n + 1) - 1 = 2 * n + 1 by omega]; ring
  · rw [Nat.add_sub_cancel]

/-- frames of the input that one frame stands for after block `b`, relative to the frames before the first block -/
theorem prefix_sums (c : Cfg) (ns : List Nat) (hn : ∀ n ∈ ns, 1 ≤ n) (D : Nat) (B : Nat) (hB : B ≤ ns.length) :
    ratio c ((List.range B).flatMap (fun b => (List.range (ns.getD b 0)).map (fun i => (b, i)))) = c.ibStride ^ (B - 1) ∧
    spanOf c ((List.range B).flatMap (fun b => (List.range (ns.getD b 0)).map (fun i => (b, i)))) =
      ((List.range B).map (fun b => (c.kernel - 1) * c.ibStride ^ (b - 1) + (2 * ns.getD b 0 - 1) * (c.kernel - 1) * c.ibStride ^ b)).sum ∧
    ctxSum c D ((List.range B).flatMap (fun b => (List.range (ns.getD b 0)).map (fun i => (b, i)))) =
      ((List.range B).map (fun b => D * c.ibStride ^ (b - 1) * (c.kernel - 1) / 2 + (ns.getD b 0 - 1) * (D * c.ibStride ^ b * (c.kernel - 1) / 2))).sum := by
  induction B with
  | zero => simp [ratio, spanOf, ctxSum]
  | succ B ih =>
    obtain ⟨h1, h2, h3⟩ := ih (by omega)
    have hnB : 1 ≤ ns.getD B 0 := by
      rw [List.getD_eq_getElem?_getD, List.getElem?_eq_getElem (by omega), Option.getD_some]
      exact hn _ (List.getElem_mem _)
    obtain ⟨k1, k2, k3⟩ := block_sums c B (ns.getD B 0) hnB (D * c.ibStride ^ (B - 1))
    have hpow : c.ibStride ^ (B - 1) * (if B = 0 then 1 else c.ibStride) = c.ibStride ^ B := by
      cases B with
      | zero => simp
      | succ B => rw [if_neg (by omega), Nat.add_sub_cancel, pow_succ]
    rw [List.range_succ, List.flatMap_append, List.flatMap_singleton, ratio_append, spanOf_append, ctxSum_append, List.map_append, List.sum_append, List.map_append,
      List.sum_append, h1, h2, h3, k1, k2, k3]
    refine ⟨hpow, ?_, ?_⟩
    · congr 1
      simp only [List.map_cons, List.map_nil, List.sum_cons, List.sum_nil, Nat.add_zero]
      rw [Nat.mul_add, Nat.mul_comm]
      congr 1
      rw [← hpow]
      ring
    · congr 1
      simp only [List.map_cons, List.map_nil, List.sum_cons, List.sum_nil, Nat.add_zero]
      rw [show D * c.ibStride ^ (B - 1) * (if B = 0 then 1 else c.ibStride) = D * c.ibStride ^ B by rw [Nat.mul_assoc, hpow]]

/-! ### The context -/

/-- contexts added along a list of sub-blocks, from the length before them -/
def ctxOf (c : Cfg) (T : Nat) : Nat → List (Nat × Nat) → Nat
  | _, [] => 0
  | L, p :: l => addContext T L c.kernel + ctxOf c T (up L (strideOf c p)) l

theorem fold_split (c : Cfg) (filters : List Nat) (hk : 0 < c.kernel) (hib : 0 < c.ibStride) (hbn : c.bottleneck = false) (l : List (Nat × Nat))
    (hp : ∀ p ∈ l, strideOf c p = 1 ∨ filters.getD p.1 0 ≠ filters.getD (p.1 - 1) 0) {F : Type} (P : Params F) (z zp : F) (T : Nat) (h : List F) (ctx : Nat)
    (hL : 0 < h.length) :
    l.foldlM (subBlock c P z T filters) (h, ctx) = (blocksOn c filters l F P z zp h).map (fun h' => (h', ctx + ctxOf c T h.length l)) := by
  induction l generalizing h ctx with
  | nil => simp [blocksOn, ctxOf]
  | cons p l ih =>
    have hs : 0 < strideOf c p := by
      unfold strideOf
      split_ifs
      · exact hib
      · exact one_pos
    have hproj : decide (0 < p.1 ∧ p.2 = 0 ∧ filters.getD p.1 0 ≠ filters.getD (p.1 - 1) 0) = true ∨ strideOf c p = 1 := by
      rcases hp p List.mem_cons_self with h | h
      · exact Or.inr h
      · by_cases hq : 0 < p.1 ∧ p.2 = 0
        · exact Or.inl (by simp only [decide_eq_true_eq]; exact ⟨hq.1, hq.2, h⟩)
        · right; unfold strideOf; rw [if_neg hq]
    obtain ⟨lo1, hi1, -, -, w1⟩ := resBlock_window c p.1 p.2 (strideOf c p) _ hL hk hs hproj
    obtain ⟨h', e, hl⟩ := (w1.local_ F P z zp).total h rfl
    have hsub : subBlock c P z T filters (h, ctx) p = some (h', ctx + addContext T h.length c.kernel) := by
      unfold subBlock
      simp only [hbn, Bool.false_eq_true, if_false]
      have e' : resBlock c P z p.1 p.2 (if 0 < p.1 ∧ p.2 = 0 then c.ibStride else 1)
          (decide (0 < p.1 ∧ p.2 = 0 ∧ filters.getD p.1 0 ≠ filters.getD (p.1 - 1) 0)) h = some h' := e
      rw [e']
      rfl
    rw [List.foldlM_cons, hsub]
    simp only [Option.bind_eq_bind, Option.bind_some]
    rw [ih (fun q hq => hp q (List.mem_cons_of_mem _ hq)) h' _ (by rw [hl]; exact up_pos hL hs), hl, ctxOf, ← Nat.add_assoc]
    congr 1
    unfold blocksOn
    rw [List.foldlM_cons]
    have e' : resBlock c P z p.1 p.2 (strideOf c p) (decide (0 < p.1 ∧ p.2 = 0 ∧ filters.getD p.1 0 ≠ filters.getD (p.1 - 1) 0)) h = some h' := e
    rw [e']
    rfl

theorem addContext_exact {T L D k : Nat} (hL : 0 < L) (h : L * D = T) (hk : 0 < k) : addContext T L k = D * (k - 1) / 2 := by
  unfold addContext
  have hLq : (L : ℚ) ≠ 0 := by exact_mod_cast hL.ne'
  have e : ((T : ℚ) / L) * ((k : ℚ) - 1) / 2 = ((D * (k - 1) : ℕ) : ℚ) / 2 := by
    rw [← h]
    push_cast [Nat.cast_sub hk]
    field_simp
  rw [e]
  generalize D * (k - 1) = n
  have : ⌊(n : ℚ) / 2⌋ = ((n / 2 : ℕ) : ℤ) := by
    rw [Int.floor_eq_iff]
    have h1 := Nat.div_add_mod n 2
    have h2 := Nat.mod_lt n (show 0 < 2 by omega)
    have h3 : (n : ℚ) = 2 * ((n / 2 : ℕ) : ℚ) + ((n % 2 : ℕ) : ℚ) := by exact_mod_cast h1.symm
    have h4 : ((n % 2 : ℕ) : ℚ) < 2 := by exact_mod_cast h2
    have h5 : (0 : ℚ) ≤ ((n % 2 : ℕ) : ℚ) := by positivity
    rw [Int.cast_natCast]
    generalize ((n / 2 : ℕ) : ℚ) = q at *
    generalize ((n % 2 : ℕ) : ℚ) = m at *
    constructor <;> linarith
  rw [this, Int.toNat_natCast]

theorem ctxOf_exact (c : Cfg) (hk : 0 < c.kernel) (hib : 0 < c.ibStride) {T : Nat} (l : List (Nat × Nat)) (L D : Nat) (hL : 0 < L) (h : L * D = T) (hd : ratio c l ∣ L) :
    ctxOf c T L l = ctxSum c D l := by
  induction l generalizing L D with
  | nil => rfl
  | cons p l ih =>
    have hs : 0 < strideOf c p := by
      unfold strideOf
      split_ifs
      · exact hib
      · exact one_pos
    obtain ⟨q, rfl⟩ := hd
    rw [ratio] at hL h ⊢
    have hup : up (strideOf c p * ratio c l * q) (strideOf c p) = ratio c l * q := by
      apply le_antisymm
      · rw [up_le hs]; exact le_of_eq (by ring)
      · have := le_up_mul (strideOf c p * ratio c l * q) hs
        have e : strideOf c p * ratio c l * q = ratio c l * q * strideOf c p := by ring
        rw [e] at this ⊢
        exact Nat.le_of_mul_le_mul_right this hs
    rw [ctxOf, ctxSum, addContext_exact hL h hk, hup]
    congr 1
    refine ih _ _ ?_ ?_ ⟨q, rfl⟩
    · refine Nat.pos_of_ne_zero (fun h0 => ?_)
      rw [Nat.mul_assoc, h0, Nat.mul_zero] at hL
      exact absurd hL (lt_irrefl _)
    · rw [← h]; ring

/-- Specification. Arguments accepted by the constructor for a network of plain blocks, with a projection wherever the stride is
not one. -/
structure Good (c : Cfg) (fl ns : List Nat) : Prop where
  blocks : 2 ≤ c.blocks
  fc : 1 ≤ c.fcLayers
  filters : filterList c = some fl
  subs : subList c = some ns
  units : fcAssert c = some ()
  plain : c.bottleneck = false
  kernel : 0 < c.kernel
  inKernel : 0 < c.inKernel
  poolSize : 0 < c.poolSize
  ib : 0 < c.ibStride
  inStride : 0 < c.inStride
  poolStride : 0 < c.poolStride
  some_ : ∀ n ∈ ns, 1 ≤ n
  proj : c.ibStride = 1 ∨ ∀ b, 0 < b → b < c.blocks → fl.getD b 0 ≠ fl.getD (b - 1) 0

/-- Specification. Frames seen by an output frame besides the first of them: every convolution and the maximum see `k - 1` more
frames of their own input. -/
def seen (c : Cfg) (ns : List Nat) : Nat :=
  (c.inKernel - 1) + c.inStride * (c.poolSize - 1) + c.inStride * c.poolStride *
    ((List.range c.blocks).map (fun b => (c.kernel - 1) * c.ibStride ^ (b - 1) + (2 * ns.getD b 0 - 1) * (c.kernel - 1) * c.ibStride ^ b)).sum

/-- Specification. Input frames per output frame. -/
def perFrame (c : Cfg) : Nat := c.inStride * c.poolStride * c.ibStride ^ (c.blocks - 1)

theorem subList_length {c : Cfg} {ns : List Nat} (h : subList c = some ns) : ns.length = c.blocks := by
  unfold subList at h
  split at h
  · split_ifs at h with h2
    obtain rfl := Option.some.inj h
    exact h2
  · obtain rfl := Option.some.inj h
    simp

theorem Good.order {c : Cfg} {fl ns : List Nat} (h : Good c fl ns) :
    (∀ p ∈ subOrder ns, strideOf c p = 1 ∨ fl.getD p.1 0 ≠ fl.getD (p.1 - 1) 0) ∧ ratio c (subOrder ns) = c.ibStride ^ (c.blocks - 1) := by
  have hlen := subList_length h.subs
  constructor
  · intro p hp
    unfold subOrder at hp
    obtain ⟨b, hb, hp⟩ := List.mem_flatMap.1 hp
    obtain ⟨i, _, rfl⟩ := List.mem_map.1 hp
    have hb := List.mem_range.1 hb
    unfold strideOf
    by_cases hq : 0 < (b, i).1 ∧ (b, i).2 = 0
    · rw [if_pos hq]
      rcases h.proj with hi | hf
      · exact Or.inl hi
      · exact Or.inr (hf b hq.1 (by omega))
    · rw [if_neg hq]; exact Or.inl rfl
  · have := (prefix_sums c ns h.some_ 0 ns.length le_rfl).1
    unfold subOrder
    rw [this, hlen]

theorem resnet_split {c : Cfg} {fl ns : List Nat} (h : Good c fl ns) {F : Type} (P : Params F) (z zp : F) (x : List F) (hx : 0 < x.length) :
    resnet c P z zp x = (framesOf c fl ns F P z zp x).map (fun y => (y, (c.inKernel - 1) / 2 + addContext x.length (up x.length c.inStride) c.poolSize +
      ctxOf c x.length (up (up x.length c.inStride) c.poolStride) (subOrder ns))) := by
  have hl1 : ((conv c.inKernel c.inStride z P.conv0 (bnIf c P.bnIn x)).map P.act).length = up x.length c.inStride := by
    rw [List.length_map, conv_length]
    congr 1
    unfold bnIf
    split_ifs <;> simp
  have hl2 : (conv c.poolSize c.poolStride zp P.pool ((conv c.inKernel c.inStride z P.conv0 (bnIf c P.bnIn x)).map P.act)).length =
      up (up x.length c.inStride) c.poolStride := by rw [conv_length, hl1]
  have hpos : 0 < up (up x.length c.inStride) c.poolStride := up_pos (up_pos hx h.inStride) h.poolStride
  unfold resnet
  rw [h.filters, h.subs, h.units]
  simp only [h.blocks, h.fc, guard_true, Option.pure_def, Option.bind_eq_bind, Option.bind_some]
  rw [hl1, fold_split c fl h.kernel h.ib h.plain _ h.order.1 P z zp _ _ _ (by rw [hl2]; exact hpos), hl2]
  unfold framesOf
  cases blocksOn c fl (subOrder ns) F P z zp
      (conv c.poolSize c.poolStride zp P.pool ((conv c.inKernel c.inStride z P.conv0 (bnIf c P.bnIn x)).map P.act)) <;> rfl

/-- **C170 (what is seen).** For all weights and lengths: one output frame for `perFrame` input frames, rounded up; output frame `t`
depends on the frames from `t · perFrame - lo` to `t · perFrame + hi` only, with `lo + hi = seen` and `lo` not the larger; with
weights that add, both ends really count. -/
theorem C170_sees (c : Cfg) (fl ns : List Nat) (h : Good c fl ns) (T : Nat) (hT : 0 < T) : ∃ lo hi, lo + hi = seen c ns ∧ lo ≤ hi ∧
    (∀ (F : Type) (P : Params F) (z zp : F) (x : List F), x.length = T → ∃ y ctx, resnet c P z zp x = some (y, ctx) ∧ y.length = (T + perFrame c - 1) / perFrame c) ∧
    (∀ (F : Type) (P : Params F) (z zp : F) (x x' y y' : List F) (ctx ctx' : Nat), x.length = T → x'.length = T → resnet c P z zp x = some (y, ctx) →
      resnet c P z zp x' = some (y', ctx') → ∀ t, (∀ p, t * perFrame c ≤ p + lo → p ≤ t * perFrame c + hi → x[p]? = x'[p]?) → y[t]? = y'[t]?) ∧
    (∀ (x y : List Nat) (ctx : Nat), x.length = T → resnet c sumP 0 0 x = some (y, ctx) →
      (∀ t, t * perFrame c + hi < T → x.getD (t * perFrame c + hi) 0 ≠ 0 → y.getD t 0 ≠ 0) ∧
      (∀ t, t * perFrame c < T → lo ≤ t * perFrame c → x.getD (t * perFrame c - lo) 0 ≠ 0 → y.getD t 0 ≠ 0) ∧
      ((∀ p, x.getD p 0 = 0) → ∀ t, y.getD t 0 = 0)) := by
  obtain ⟨lo, hi, e1, e2, w⟩ := frames_window c fl ns h.kernel h.ib h.inKernel h.inStride h.poolSize h.poolStride h.order.1 hT
  have hsp : spanOf c (subOrder ns) = ((List.range c.blocks).map (fun b => (c.kernel - 1) * c.ibStride ^ (b - 1) +
      (2 * ns.getD b 0 - 1) * (c.kernel - 1) * c.ibStride ^ b)).sum := by
    have := (prefix_sums c ns h.some_ 0 ns.length le_rfl).2.1
    unfold subOrder
    rw [this, subList_length h.subs]
  rw [h.order.2] at w
  have hR : 0 < perFrame c := Nat.mul_pos (Nat.mul_pos h.inStride h.poolStride) (pow_pos h.ib _)
  have w : Window T (perFrame c) lo hi (framesOf c fl ns) := w
  refine ⟨lo, hi, by rw [e1, hsp]; rfl, by omega, ?_, ?_, ?_⟩
  · intro F P z zp x hx
    obtain ⟨y, ey, hy⟩ := (w.local_ F P z zp).total x hx
    rw [resnet_split h P z zp x (by omega), ey]
    exact ⟨y, _, rfl, hy⟩
  · intro F P z zp x x' y y' ctx ctx' hx hx' e e' t ht
    rw [resnet_split h P z zp x (by omega)] at e
    rw [resnet_split h P z zp x' (by omega)] at e'
    obtain ⟨v, ev, e⟩ := Option.map_eq_some_iff.1 e
    obtain ⟨v', ev', e'⟩ := Option.map_eq_some_iff.1 e'
    obtain rfl := (Prod.mk.inj e).1
    obtain rfl := (Prod.mk.inj e').1
    rcases Nat.lt_or_ge t (up T (perFrame c)) with hlt | hge
    · exact (w.local_ F P z zp).window x x' v v' hx hx' ev ev' t hlt ht
    · obtain ⟨u, eu, hu⟩ := (w.local_ F P z zp).total x hx
      obtain ⟨u', eu', hu'⟩ := (w.local_ F P z zp).total x' hx'
      rw [ev] at eu
      rw [ev'] at eu'
      obtain rfl := Option.some.inj eu
      obtain rfl := Option.some.inj eu'
      rw [List.getElem?_eq_none (by omega), List.getElem?_eq_none (by omega)]
  · intro x y ctx hx e
    rw [resnet_split h sumP 0 0 x (by omega)] at e
    obtain ⟨v, ev, e⟩ := Option.map_eq_some_iff.1 e
    obtain rfl := (Prod.mk.inj e).1
    exact ⟨fun t ht hne => w.reach.high x v hx ev t ht hne, fun t ht hlo hne => w.reach.low x v hx ev t ((lt_up hR).2 ht) hlo hne,
      fun h0 t => w.reach.zero x v hx ev h0 t⟩

/-- **C170 (the context reported).** For lengths that the strides divide: half of the first convolution, of the maximum, and of ONE
convolution in each sub-block, at the resolution before it. -/
theorem C170_context (c : Cfg) (fl ns : List Nat) (h : Good c fl ns) {F : Type} (P : Params F) (z zp : F) (x : List F) (hx : 0 < x.length)
    (hd : perFrame c ∣ x.length) : (resnet c P z zp x).map Prod.snd = some ((c.inKernel - 1) / 2 + c.inStride * (c.poolSize - 1) / 2 +
      ((List.range c.blocks).map (fun b => c.inStride * c.poolStride * c.ibStride ^ (b - 1) * (c.kernel - 1) / 2 +
        (ns.getD b 0 - 1) * (c.inStride * c.poolStride * c.ibStride ^ b * (c.kernel - 1) / 2))).sum) := by
  obtain ⟨lo, hi, -, -, w⟩ := frames_window c fl ns h.kernel h.ib h.inKernel h.inStride h.poolSize h.poolStride h.order.1 hx
  obtain ⟨y, ey, -⟩ := (w.local_ F P z zp).total x rfl
  rw [resnet_split h P z zp x hx, ey]
  simp only [Option.map_some]
  congr 1
  obtain ⟨q, hq⟩ := hd
  generalize x.length = T at *
  have hG := Nat.mul_pos h.inStride h.poolStride
  have hq0 : 0 < q := Nat.pos_of_ne_zero (fun h0 => by rw [h0, Nat.mul_zero] at hq; omega)
  have hpw : 0 < c.ibStride ^ (c.blocks - 1) := pow_pos h.ib _
  have hup : ∀ a s : Nat, 0 < s → up (s * a) s = a := by
    intro a s hs
    apply le_antisymm
    · rw [up_le hs, Nat.mul_comm]
    · have := le_up_mul (s * a) hs
      rw [Nat.mul_comm s a] at this ⊢
      exact Nat.le_of_mul_le_mul_right this hs
  have hT1 : T = c.inStride * (c.poolStride * (c.ibStride ^ (c.blocks - 1) * q)) := by rw [hq]; unfold perFrame; ring
  have u1 : up T c.inStride = c.poolStride * (c.ibStride ^ (c.blocks - 1) * q) := by rw [hT1]; exact hup _ _ h.inStride
  have u2 : up (up T c.inStride) c.poolStride = c.ibStride ^ (c.blocks - 1) * q := by rw [u1]; exact hup _ _ h.poolStride
  rw [u2, u1, addContext_exact (D := c.inStride) (Nat.mul_pos h.poolStride (Nat.mul_pos hpw hq0)) (by rw [hT1, Nat.mul_comm]) h.poolSize,
    ctxOf_exact c h.kernel h.ib _ _ (c.inStride * c.poolStride) (Nat.mul_pos hpw hq0) (by rw [hT1]; ring) (by rw [h.order.2]; exact ⟨q, rfl⟩)]
  congr 1
  have := (prefix_sums c ns h.some_ (c.inStride * c.poolStride) ns.length le_rfl).2.2
  unfold subOrder
  rw [this, subList_length h.subs]

/-- **C170 (what is missing).** For odd kernels twice the context is short of what is seen by the second convolution of every
sub-block. -/
theorem C170_missing (c : Cfg) (fl ns : List Nat) (h : Good c fl ns) (k i p : Nat) (hk : c.kernel = 2 * k + 1) (hi : c.inKernel = 2 * i + 1) (hp : c.poolSize = 2 * p + 1)
    {F : Type} (P : Params F) (z zp : F) (x : List F) (hx : 0 < x.length) (hd : perFrame c ∣ x.length) (y : List F) (ctx : Nat) (hr : resnet c P z zp x = some (y, ctx)) :
    2 * ctx + 2 * k * (c.inStride * c.poolStride * ((List.range c.blocks).map (fun b => ns.getD b 0 * c.ibStride ^ b)).sum) = seen c ns := by
  have hc := C170_context c fl ns h P z zp x hx hd
  rw [hr, Option.map_some] at hc
  have hc := Option.some.inj hc
  simp only at hc
  subst hc
  unfold seen
  rw [hk, hi, hp]
  simp only [Nat.add_sub_cancel]
  have d2 : ∀ a : Nat, a * (2 * k) / 2 = a * k := by intro a; rw [show a * (2 * k) = 2 * (a * k) by ring]; exact Nat.mul_div_cancel_left _ two_pos
  have d3 : c.inStride * (2 * p) / 2 = c.inStride * p := by rw [show c.inStride * (2 * p) = 2 * (c.inStride * p) by ring]; exact Nat.mul_div_cancel_left _ two_pos
  have d4 : 2 * i / 2 = i := Nat.mul_div_cancel_left _ two_pos
  simp only [d2, d3, d4]
  have key : ∀ B, B ≤ c.blocks → 2 * ((List.range B).map (fun b => c.inStride * c.poolStride * c.ibStride ^ (b - 1) * k +
        (ns.getD b 0 - 1) * (c.inStride * c.poolStride * c.ibStride ^ b * k))).sum +
      2 * k * (c.inStride * c.poolStride * ((List.range B).map (fun b => ns.getD b 0 * c.ibStride ^ b)).sum) =
      c.inStride * c.poolStride * ((List.range B).map (fun b => 2 * k * c.ibStride ^ (b - 1) + (2 * ns.getD b 0 - 1) * (2 * k) * c.ibStride ^ b)).sum := by
    intro B hB
    induction B with
    | zero => simp
    | succ B ih =>
      have ih := ih (by omega)
      have hn : 1 ≤ ns.getD B 0 := by
        have hl := subList_length h.subs
        rw [List.getD_eq_getElem?_getD, List.getElem?_eq_getElem (by omega), Option.getD_some]
        exact h.some_ _ (List.getElem_mem _)
      obtain ⟨m, hm⟩ : ∃ m, ns.getD B 0 = m + 1 := ⟨ns.getD B 0 - 1, by omega⟩
      rw [List.range_succ]
      simp only [List.map_append, List.sum_append, List.map_cons, List.map_nil, List.sum_cons, List.sum_nil, Nat.add_zero]
      rw [Nat.mul_add (c.inStride * c.poolStride) (((List.range B).map (fun b => 2 * k * c.ibStride ^ (b - 1) + (2 * ns.getD b 0 - 1) * (2 * k) * c.ibStride ^ b)).sum), ← ih, hm,
        Nat.add_sub_cancel, show 2 * (m + 1) - 1 = 2 * m + 1 by omega]
      ring
  have := key c.blocks le_rfl
  have e : c.inStride * (2 * p) = 2 * (c.inStride * p) := by ring
  omega

/-- **C170 (defect: the context does not cover what is seen).** For odd kernels, the one of the blocks at least 3, and any length
which is a multiple of the stride and long enough: there are weights, an output frame, and two sequences equal on the
`perFrame` frames of that output and on the context reported on both sides of them, for which that output frame differs. -/
theorem C170_underestimates (c : Cfg) (fl ns : List Nat) (h : Good c fl ns) (k i p : Nat) (hk : c.kernel = 2 * k + 1) (hk0 : 0 < k) (hi : c.inKernel = 2 * i + 1)
    (hp : c.poolSize = 2 * p + 1) (T : Nat) (hT : seen c ns + perFrame c ≤ T) (hd : perFrame c ∣ T) :
    ∃ (x x' y y' : List Nat) (ctx t : Nat), x.length = T ∧ x'.length = T ∧ resnet c sumP 0 0 x = some (y, ctx) ∧ resnet c sumP 0 0 x' = some (y', ctx) ∧
      (∀ q, t * perFrame c ≤ q + ctx → q < (t + 1) * perFrame c + ctx → x[q]? = x'[q]?) ∧ t < y.length ∧ y[t]? ≠ y'[t]? := by
  have hR : 0 < perFrame c := Nat.mul_pos (Nat.mul_pos h.inStride h.poolStride) (pow_pos h.ib _)
  obtain ⟨lo, hi', e1, e2, w1, -, w3⟩ := C170_sees c fl ns h T (by omega)
  obtain ⟨y0, ctx, r0, l0⟩ := w1 Nat sumP 0 0 (List.replicate T 0) (by simp)
  have hmis := C170_missing c fl ns h k i p hk hi hp sumP 0 0 (List.replicate T 0) (by simp; omega) (by simpa using hd) y0 ctx r0
  have hbig : perFrame c ≤ c.inStride * c.poolStride * ((List.range c.blocks).map (fun b => ns.getD b 0 * c.ibStride ^ b)).sum := by
    unfold perFrame
    refine Nat.mul_le_mul_left _ ?_
    have hb := h.blocks
    have hl := subList_length h.subs
    have hn : 1 ≤ ns.getD (c.blocks - 1) 0 := by
      rw [List.getD_eq_getElem?_getD, List.getElem?_eq_getElem (by omega), Option.getD_some]
      exact h.some_ _ (List.getElem_mem _)
    have hm : ns.getD (c.blocks - 1) 0 * c.ibStride ^ (c.blocks - 1) ∈ (List.range c.blocks).map (fun b => ns.getD b 0 * c.ibStride ^ b) :=
      List.mem_map.2 ⟨c.blocks - 1, List.mem_range.2 (by omega), rfl⟩
    have h1 : ∀ (l : List Nat) (v : Nat), v ∈ l → v ≤ l.sum := by
      intro l v hv
      induction l with
      | nil => cases hv
      | cons a l ih =>
        rw [List.sum_cons]
        rcases List.mem_cons.1 hv with rfl | hv
        · omega
        · have := ih hv; omega
    exact le_trans (Nat.le_mul_of_pos_left _ hn) (h1 _ _ hm)
  have hbig2 : 2 * perFrame c ≤ 2 * k * (c.inStride * c.poolStride * ((List.range c.blocks).map (fun b => ns.getD b 0 * c.ibStride ^ b)).sum) :=
    le_trans (Nat.mul_le_mul_left 2 hbig) (Nat.mul_le_mul_right _ (by omega))
  have hzero := (w3 (List.replicate T 0) y0 ctx (by simp) r0).2.2 (fun q => by
    rw [List.getD_eq_getElem?_getD, List.getElem?_replicate]
    split_ifs <;> rfl)
  -- the frame that is seen
  obtain ⟨t, ht1, ht2⟩ : ∃ t, lo ≤ t * perFrame c ∧ t * perFrame c < lo + perFrame c := by
    refine ⟨up lo (perFrame c), le_up_mul lo hR, ?_⟩
    have : up lo (perFrame c) - 1 < up lo (perFrame c) ∨ up lo (perFrame c) = 0 := by omega
    rcases this with h' | h'
    · have h2 := (lt_up hR).1 h'
      rw [Nat.sub_mul, Nat.one_mul] at h2
      omega
    · rw [h']; omega
  obtain ⟨q, hq, hqw, hq3⟩ : ∃ q, q < T ∧ (q + ctx < t * perFrame c ∨ (t + 1) * perFrame c + ctx ≤ q) ∧
      ∀ (x y : List Nat), x.length = T → resnet c sumP 0 0 x = some (y, ctx) → x.getD q 0 ≠ 0 → y.getD t 0 ≠ 0 := by
    rcases Nat.lt_or_ge ctx lo with hlt | hge
    · exact ⟨t * perFrame c - lo, by omega, Or.inl (by omega), fun x y hx e hne => (w3 x y ctx hx e).2.1 t (by omega) ht1 hne⟩
    · refine ⟨t * perFrame c + hi', by omega, Or.inr ?_, fun x y hx e hne => (w3 x y ctx hx e).1 t (by omega) hne⟩
      rw [Nat.add_mul, Nat.one_mul]
      omega
  have hset : ((List.replicate T 0).set q 1).length = T := by simp
  obtain ⟨y1, ctx1, r1, l1⟩ := w1 Nat sumP 0 0 ((List.replicate T 0).set q 1) hset
  have hctx : ctx1 = ctx := by
    have c0 := C170_context c fl ns h sumP 0 0 (List.replicate T 0) (by simp; omega) (by simpa using hd)
    have c1 := C170_context c fl ns h sumP 0 0 ((List.replicate T 0).set q 1) (by rw [hset]; omega) (by rw [hset]; exact hd)
    rw [r0, Option.map_some] at c0
    rw [r1, Option.map_some, ← c0] at c1
    exact Option.some.inj c1
  subst hctx
  have htl : t < y1.length := by
    rw [l1]
    have : t < up T (perFrame c) := (lt_up hR).2 (by omega)
    exact this
  refine ⟨(List.replicate T 0).set q 1, List.replicate T 0, y1, y0, ctx1, t, hset, by simp, r1, r0, ?_, htl, ?_⟩
  · intro r h1 h2
    rw [List.getElem?_set_ne]
    rintro rfl
    omega
  · have hne := hq3 _ y1 hset r1 (by
      rw [List.getD_eq_getElem?_getD, List.getElem?_set_self (by simpa using hq)]
      simp)
    intro he
    apply hne
    rw [List.getD_eq_getElem?_getD, he, ← List.getD_eq_getElem?_getD]
    exact hzero t

/-- **C170 (assertions).** The arguments that the constructor refuses. -/
theorem C170_asserts (c : Cfg) {F : Type} (P : Params F) (z zp : F) (x : List F)
    (h : c.blocks < 2 ∨ c.fcLayers = 0 ∨ (∃ l, c.filters = .many l ∧ l.length ≠ c.blocks) ∨ (∃ l, c.subs = .many l ∧ l.length ≠ c.blocks) ∨
      ∃ l, c.fcUnits = .many l ∧ l.length + 1 ≠ c.fcLayers) : resnet c P z zp x = none := by
  unfold resnet
  by_cases h1 : 2 ≤ c.blocks
  swap
  · simp [h1, guard]
  by_cases h2 : 1 ≤ c.fcLayers
  swap
  · simp [h1, h2, guard]
  have key : filterList c = none ∨ subList c = none ∨ fcAssert c = none := by
    rcases h with h | h | ⟨l, e, h⟩ | ⟨l, e, h⟩ | ⟨l, e, h⟩
    · omega
    · omega
    · left
      unfold filterList
      rw [e]
      exact if_neg h
    · right; left
      unfold subList
      rw [e]
      exact if_neg h
    · right; right
      unfold fcAssert
      rw [e]
      exact if_neg (by omega)
  rcases key with e | e | e
  · simp [h1, h2, e, guard]
  · simp [h1, h2, e, guard]
  · cases filterList c <;> cases subList c <;> simp [h1, h2, e, guard]

/-- the part before the dense layers -/
def headOf (c : Cfg) {F : Type} (P : Params F) (z zp : F) (x : List F) : Option (List F × Nat) := do
  guard (2 ≤ c.blocks)
  let filters ← filterList c
  let subs ← subList c
  let h := (conv c.inKernel c.inStride z P.conv0 (bnIf c P.bnIn x)).map P.act
  (subOrder subs).foldlM (subBlock c P z x.length filters) (conv c.poolSize c.poolStride zp P.pool h, (c.inKernel - 1) / 2 + addContext x.length h.length c.poolSize)

theorem resnet_head (c : Cfg) (hf : 1 ≤ c.fcLayers) (hu : fcAssert c = some ()) {F : Type} (P : Params F) (z zp : F) (x : List F) :
    resnet c P z zp x = (headOf c P z zp x).map (fun st => ((bnIf c P.bnOut ((List.range (c.fcLayers - 1)).foldl (fcLayer c P) st.1)).map P.out, st.2)) := by
  unfold resnet headOf
  by_cases h1 : 2 ≤ c.blocks
  swap
  · simp [h1, guard]
  cases filterList c with
  | none => simp [h1, hf, guard]
  | some fl =>
    cases subList c with
    | none => simp [h1, hf, guard]
    | some ns =>
      simp only [h1, hf, guard, hu, if_true, Option.bind_eq_bind, Option.bind_some, Option.pure_def, Option.map_eq_bind]
      rfl

/-- **C170 (dense layers).** The layers after the blocks are computed frame by frame: every one of the `num_fc_layers - 1` hidden layers
(normalized, if asked for, and activated), then the output layer. The context is that of the blocks. -/
theorem C170_dense (c : Cfg) (hf : 1 ≤ c.fcLayers) (hu : fcAssert c = some ()) {F : Type} (P : Params F) (z zp : F) (x : List F) :
    resnet c P z zp x = (resnet { c with fcLayers := 1, fcUnits := .one 0 } { P with bnOut := id, out := id } z zp x).map (fun r =>
      (r.1.map (fun v => P.out ((if c.useBn then P.bnOut else id)
        ((List.range (c.fcLayers - 1)).foldl (fun v i => P.act (P.fc i (if c.useBn then P.bnFc i v else v))) v))), r.2)) := by
  have hfold : ∀ (l : List Nat) (h : List F), l.foldl (fcLayer c P) h =
      h.map (fun v => l.foldl (fun v i => P.act (P.fc i (if c.useBn then P.bnFc i v else v))) v) := by
    intro l
    induction l with
    | nil => intro h; simp
    | cons i l ih =>
      intro h
      rw [List.foldl_cons, ih]
      unfold fcLayer bnIf
      cases c.useBn <;> simp
  rw [resnet_head c hf hu, resnet_head { c with fcLayers := 1, fcUnits := .one 0 } le_rfl rfl,
    show headOf { c with fcLayers := 1, fcUnits := .one 0 } { P with bnOut := id, out := id } z zp x = headOf c P z zp x from rfl, Option.map_map]
  congr 1
  funext st
  simp only [Function.comp, hfold]
  unfold bnIf
  cases c.useBn <;> simp

theorem good18 (useBn : Bool) : Good (resnet18 64 512 useBn) [64, 128, 256, 512] [2, 2, 2, 2] := by
  cases useBn
  all_goals
    refine ⟨by decide, by decide, by decide +kernel, rfl, rfl, rfl, by decide, by decide, by decide, by decide, by decide, by decide, by decide, Or.inr fun b h0 h1 => ?_⟩
    have h1 : b < 4 := h1
    interval_cases b <;> decide

/-- **C170 (ResNet18).** For up to 64 filters in the first block: an output frame sees 435 frames and stands for 32; the context
reported for a multiple of 32 frames is 97. -/
theorem C170_resnet18 (useBn : Bool) {F : Type} (P : Params F) (z zp : F) (x : List F) (hx : 0 < x.length) (hd : 32 ∣ x.length) :
    seen (resnet18 64 512 useBn) [2, 2, 2, 2] + 1 = 435 ∧ perFrame (resnet18 64 512 useBn) = 32 ∧
    ∃ y, resnet (resnet18 64 512 useBn) P z zp x = some (y, 97) ∧ y.length * 32 = x.length := by
  have hg := good18 useBn
  have hpf : perFrame (resnet18 64 512 useBn) = 32 := rfl
  refine ⟨by cases useBn <;> decide +kernel, hpf, ?_⟩
  obtain ⟨lo, hi, -, -, w1, -, -⟩ := C170_sees _ _ _ hg x.length hx
  obtain ⟨y, ctx, e, hl⟩ := w1 F P z zp x rfl
  have hc := C170_context _ _ _ hg P z zp x hx (by rw [hpf]; exact hd)
  rw [e, Option.map_some] at hc
  have hc := Option.some.inj hc
  have : ctx = 97 := hc.trans (by cases useBn <;> decide +kernel)
  subst this
  refine ⟨y, e, ?_⟩
  rw [hl, hpf]
  omega

theorem bnIf_length (c : Cfg) {F : Type} (f : F → F) (h : List F) : (bnIf c f h).length = h.length := by
  unfold bnIf
  split_ifs <;> simp

theorem addSeq_length {F : Type} {f : F → F → F} {a b r : List F} (h : addSeq f a b = some r) (ha : a.length ≠ 1) (hb : b.length ≠ 1) :
    a.length = b.length ∧ r.length = a.length := by
  unfold addSeq at h
  split_ifs at h with e
  · obtain rfl := Option.some.inj h
    exact ⟨e, by simp [e]⟩
  · exfalso
    split at h
    · simp at ha
    · simp at hb
    · cases h

theorem resBlock_length (c : Cfg) {F : Type} (P : Params F) (z : F) (b i s : Nat) (proj : Bool) (x r : List F) (hs : 0 < s) (hL : s < x.length)
    (h : resBlock c P z b i s proj x = some r) : r.length = up x.length s ∧ (proj = false → s = 1) := by
  have hup : 1 < up x.length s := (lt_up hs).2 (by omega)
  unfold resBlock at h
  obtain ⟨q, hq, rfl⟩ := Option.map_eq_some_iff.1 h
  have hm : (conv c.kernel 1 z (P.conv2 b i) (bnIf c (P.bn2 b i) ((conv c.kernel s z (P.conv1 b i) (bnIf c (P.bn1 b i) x)).map P.act))).length = up x.length s := by
    rw [conv_length, bnIf_length, List.length_map, conv_length, bnIf_length, up_one]
  rw [List.length_map]
  cases proj with
  | true =>
    simp only [if_true] at hq
    obtain ⟨-, h2⟩ := addSeq_length hq (by rw [hm]; omega) (by rw [conv_length, bnIf_length]; omega)
    exact ⟨h2.trans hm, fun h => by cases h⟩
  | false =>
    simp only [Bool.false_eq_true, if_false] at hq
    obtain ⟨h1, h2⟩ := addSeq_length hq (by rw [hm]; omega) (by rw [bnIf_length]; omega)
    refine ⟨h2.trans hm, fun _ => ?_⟩
    rw [hm, bnIf_length] at h1
    by_contra hne
    have : up x.length s ≤ x.length - 1 := (up_le hs).2 (by
      have : 2 * (x.length - 1) ≤ (x.length - 1) * s := by rw [Nat.mul_comm]; exact Nat.mul_le_mul_left _ (by omega)
      omega)
    omega

/-- frames along the sub-blocks, while there are more than they join -/
theorem fold_length (c : Cfg) (hbn : c.bottleneck = false) (hib : 0 < c.ibStride) {F : Type} (P : Params F) (z : F) (T : Nat) (fl : List Nat) (l : List (Nat × Nat))
    (st st' : List F × Nat) (hL : ratio c l < st.1.length) (h : l.foldlM (subBlock c P z T fl) st = some st') :
    st'.1.length = up st.1.length (ratio c l) ∧ ∀ p ∈ l, fl.getD p.1 0 = fl.getD (p.1 - 1) 0 → strideOf c p = 1 := by
  induction l generalizing st with
  | nil =>
    obtain rfl := Option.some.inj h
    exact ⟨(up_one _).symm, fun p hp => by cases hp⟩
  | cons p l ih =>
    rw [List.foldlM_cons] at h
    obtain ⟨s1, e1, e2⟩ := Option.bind_eq_some_iff.1 h
    have hs : 0 < strideOf c p := by unfold strideOf; split_ifs <;> omega
    have hr := ratio_pos hib l
    have hL : strideOf c p * ratio c l < st.1.length := hL
    have hsL : strideOf c p < st.1.length := by
      have := Nat.mul_le_mul_left (strideOf c p) (show 1 ≤ ratio c l from hr)
      omega
    have k : s1.1.length = up st.1.length (strideOf c p) ∧ (fl.getD p.1 0 = fl.getD (p.1 - 1) 0 → strideOf c p = 1) := by
      unfold subBlock at e1
      rw [hbn] at e1
      simp only [Bool.false_eq_true, if_false] at e1
      obtain ⟨r, hr, rfl⟩ := Option.map_eq_some_iff.1 e1
      obtain ⟨k1, k2⟩ := resBlock_length c P z p.1 p.2 (strideOf c p) _ st.1 r hs hsL hr
      exact ⟨k1, fun he => k2 (decide_eq_false (fun hh => hh.2.2 he))⟩
    obtain ⟨i1, i2⟩ := ih s1 (by rw [k.1, lt_up hs, Nat.mul_comm]; exact hL) e2
    refine ⟨?_, ?_⟩
    · rw [i1, k.1, up_up _ hs hr]
      rfl
    · intro q hq
      rcases List.mem_cons.1 hq with rfl | hq
      · exact k.2
      · exact i2 q hq

/-- **C170 (defect: equal numbers of filters).** With strides between blocks, a block with as many filters as the block before has
no projection in its shortcut: from the stated length on, the constructor raises. -/
theorem C170_equal_filters (c : Cfg) (fl ns : List Nat) (hbn : c.bottleneck = false) (hfl : filterList c = some fl) (hns : subList c = some ns)
    (hn : ∀ n ∈ ns, 1 ≤ n) (his : 0 < c.inStride) (hps : 0 < c.poolStride) (hib : 2 ≤ c.ibStride) (b : Nat) (hb : 0 < b) (hbB : b < c.blocks)
    (he : fl.getD b 0 = fl.getD (b - 1) 0) {F : Type} (P : Params F) (z zp : F) (x : List F) (hx : c.inStride * c.poolStride * c.ibStride ^ b < x.length) :
    resnet c P z zp x = none := by
  have hlen := subList_length hns
  have hnb : 1 ≤ ns.getD b 0 := by
    rw [List.getD_eq_getElem?_getD, List.getElem?_eq_getElem (by omega), Option.getD_some]
    exact hn _ (List.getElem_mem _)
  obtain ⟨post, hord⟩ : ∃ post, subOrder ns = ((List.range b).flatMap (fun b => (List.range (ns.getD b 0)).map (fun i => (b, i))) ++ [(b, 0)]) ++ post := by
    have e1 : List.range ns.length = List.range b ++ b :: (List.range (ns.length - b - 1)).map (fun i => b + (i + 1)) := by
      rw [show ns.length = b + ((ns.length - b - 1) + 1) by omega, List.range_add, List.range_succ_eq_map, List.map_cons, List.map_map, Nat.add_zero,
        show b + (ns.length - b - 1 + 1) - b - 1 = ns.length - b - 1 by omega]
      rfl
    have e2 : List.range (ns.getD b 0) = 0 :: (List.range (ns.getD b 0 - 1)).map Nat.succ := by
      rw [show ns.getD b 0 = (ns.getD b 0 - 1) + 1 by omega, List.range_succ_eq_map, Nat.add_sub_cancel]
    refine ⟨((List.range (ns.getD b 0 - 1)).map Nat.succ).map (fun i => (b, i)) ++
      ((List.range (ns.length - b - 1)).map (fun i => b + (i + 1))).flatMap (fun b => (List.range (ns.getD b 0)).map (fun i => (b, i))), ?_⟩
    unfold subOrder
    rw [e1, List.flatMap_append, List.flatMap_cons]
    rw [show (List.range (ns.getD b 0)).map (fun i => (b, i)) = (b, 0) :: ((List.range (ns.getD b 0 - 1)).map Nat.succ).map (fun i => (b, i)) by rw [e2]; rfl]
    simp
  have hrat : ratio c ((List.range b).flatMap (fun b => (List.range (ns.getD b 0)).map (fun i => (b, i))) ++ [(b, 0)]) = c.ibStride ^ b := by
    rw [ratio_append, (prefix_sums c ns hn 1 b (by omega)).1]
    change c.ibStride ^ (b - 1) * (strideOf c (b, 0) * 1) = _
    unfold strideOf
    rw [if_pos ⟨hb, rfl⟩, Nat.mul_one, ← pow_succ, Nat.sub_add_cancel hb]
  have hfold : ∀ st : List F × Nat, c.ibStride ^ b < st.1.length → (subOrder ns).foldlM (subBlock c P z x.length fl) st = none := by
    intro st hst
    rw [hord, List.foldlM_append]
    rcases hf : List.foldlM (subBlock c P z x.length fl) st ((List.range b).flatMap (fun b => (List.range (ns.getD b 0)).map (fun i => (b, i))) ++ [(b, 0)]) with _ | st'
    · rfl
    · exfalso
      have := (fold_length c hbn (by omega) P z x.length fl _ st st' (by rw [hrat]; exact hst) hf).2 (b, 0) (by simp) he
      unfold strideOf at this
      rw [if_pos ⟨hb, rfl⟩] at this
      omega
  unfold resnet
  rw [hfl, hns]
  cases fcAssert c with
  | none => by_cases h1 : 2 ≤ c.blocks <;> by_cases h2 : 1 ≤ c.fcLayers <;> simp [h1, h2, guard]
  | some u =>
    simp only [Option.bind_eq_bind, Option.bind_some]
    rw [hfold]
    · simp only [Option.bind_none, Option.bind_fun_none]
    · simp only
      rw [conv_length, List.length_map, conv_length, bnIf_length, up_up _ his hps, lt_up (Nat.mul_pos his hps), Nat.mul_comm]
      exact hx

/-- `ResNet18V1` with 128 or more filters in the first block: the fourth block, or an earlier one, has as many as the one before. -/
theorem C170_wide18 (f : Nat) (hf : 128 ≤ f) (useBn : Bool) {F : Type} (P : Params F) (z zp : F) (x : List F) (hx : 32 < x.length) :
    resnet (resnet18 f 512 useBn) P z zp x = none := by
  refine C170_equal_filters _ [min 512 f, min 512 (f * 2), min 512 (f * 4), min 512 (f * 8)] [2, 2, 2, 2] rfl ?_ rfl (by decide) (show 0 < 2 by decide) (show 0 < 2 by decide)
    (show 2 ≤ 2 by decide) 3 (by decide) (show 3 < 4 by decide) ?_ P z zp x hx
  · change some ((List.range 4).map (fun i => min 512 (f * 2 ^ i))) = _
    simp [List.range_succ]
  · change min 512 (f * 8) = min 512 (f * 4)
    omega

/-- **C170 (defect: bottleneck blocks).** With bottleneck blocks, the default, the constructor raises whatever else is asked for. -/
theorem C170_bottleneck (c : Cfg) (hb : c.bottleneck = true) (hn : ∀ ns, subList c = some ns → ∃ n ∈ ns, n ≠ 0) {F : Type} (P : Params F) (z zp : F) (x : List F) :
    resnet c P z zp x = none := by
  rcases hs : subList c with _ | ns
  · unfold resnet
    rw [hs]
    by_cases h1 : 2 ≤ c.blocks <;> by_cases h2 : 1 ≤ c.fcLayers <;> simp [h1, h2, guard]
  · obtain ⟨n, hn, h0⟩ := hn ns hs
    have hne : ∃ p l, subOrder ns = p :: l := by
      obtain ⟨b, hb, rfl⟩ := List.mem_iff_getElem.1 hn
      cases ho : subOrder ns with
      | cons p l => exact ⟨p, l, rfl⟩
      | nil =>
        exfalso
        have : (b, 0) ∈ subOrder ns := by
          unfold subOrder
          refine List.mem_flatMap.2 ⟨b, List.mem_range.2 hb, List.mem_map.2 ⟨0, List.mem_range.2 ?_, rfl⟩⟩
          rw [List.getD_eq_getElem?_getD, List.getElem?_eq_getElem hb, Option.getD_some]
          omega
        rw [ho] at this
        cases this
    obtain ⟨p, l, ho⟩ := hne
    have hsub : ∀ T fl (st : List F × Nat), subBlock c P z T fl st p = none := by
      intro T fl st
      unfold subBlock
      simp [hb]
    unfold resnet
    rw [hs]
    cases filterList c with
    | none => by_cases h1 : 2 ≤ c.blocks <;> by_cases h2 : 1 ≤ c.fcLayers <;> simp [h1, h2, guard]
    | some fl =>
      cases fcAssert c with
      | none => by_cases h1 : 2 ≤ c.blocks <;> by_cases h2 : 1 ≤ c.fcLayers <;> simp [h1, h2, guard]
      | some u =>
        simp only [Option.bind_eq_bind, Option.bind_some, ho, List.foldlM_cons, hsub, Option.bind_none, Option.bind_fun_none]

/-- the three deep networks of the module -/
theorem C170_deep (useBn : Bool) {F : Type} (P : Params F) (z zp : F) (x : List F) :
    resnet (resnetDeep [3, 4, 6, 3] useBn) P z zp x = none ∧ resnet (resnetDeep [3, 4, 23, 3] useBn) P z zp x = none ∧
    resnet (resnetDeep [3, 8, 36, 3] useBn) P z zp x = none := by
  refine ⟨C170_bottleneck _ rfl ?_ P z zp x, C170_bottleneck _ rfl ?_ P z zp x, C170_bottleneck _ rfl ?_ P z zp x⟩ <;>
  · intro ns h
    obtain rfl := Option.some.inj (show some _ = some ns from h)
    exact ⟨3, by simp, by decide⟩

end Hyp.Keras.ResNet
