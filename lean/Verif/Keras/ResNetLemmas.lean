import Verif.Keras.ResNet
import Mathlib.Tactic.Ring
import Mathlib.Tactic.Linarith
import Mathlib.Algebra.Order.Field.Rat

/-! Windows of frames for the layers of `ResNetV1`: what an output frame depends on, and what it can depend on. -/

namespace Hyp.Keras.ResNet
open Hyp.Keras.Tdnn (NumOr addSeq)

/-- `⌈L / s⌉` -/
def up (L s : Nat) : Nat := (L + s - 1) / s

theorem up_le {L s m : Nat} (hs : 0 < s) : up L s ≤ m ↔ L ≤ m * s := by
  unfold up
  rw [← Nat.lt_succ_iff, Nat.div_lt_iff_lt_mul hs, Nat.succ_mul]
  omega

theorem lt_up {L s t : Nat} (hs : 0 < s) : t < up L s ↔ t * s < L := by
  rw [← not_le, up_le hs, not_le]

theorem le_up_mul (L : Nat) {s : Nat} (hs : 0 < s) : L ≤ up L s * s := (up_le hs).1 le_rfl

theorem up_up (L : Nat) {a b : Nat} (ha : 0 < a) (hb : 0 < b) : up (up L a) b = up L (a * b) := by
  apply le_antisymm
  · rw [up_le hb, up_le ha]
    have := le_up_mul L (Nat.mul_pos ha hb)
    rw [Nat.mul_assoc, Nat.mul_comm b a]
    exact this
  · rw [up_le (Nat.mul_pos ha hb)]
    have h1 := le_up_mul L ha
    have h2 := le_up_mul (up L a) hb
    calc L ≤ up L a * a := h1
      _ ≤ up (up L a) b * b * a := Nat.mul_le_mul_right _ h2
      _ = _ := by ring

theorem up_one (L : Nat) : up L 1 = L := by unfold up; simp

theorem up_pos {L s : Nat} (hL : 0 < L) (hs : 0 < s) : 0 < up L s := by
  rw [lt_up hs]; omega

/-- Specification. A network on sequences of `L` frames gives one frame for `R`, and frame `t` depends only on the frames from
`t R - lo` to `t R + hi`. -/
structure Net {F : Type} (L R lo hi : Nat) (net : List F → Option (List F)) : Prop where
  total : ∀ x : List F, x.length = L → ∃ a, net x = some a ∧ a.length = up L R
  window : ∀ x y a b : List F, x.length = L → y.length = L → net x = some a → net y = some b → ∀ t, t < up L R →
    (∀ p, t * R ≤ p + lo → p ≤ t * R + hi → x[p]? = y[p]?) → a[t]? = b[t]?

/-- Specification. Frames are numbers: a sequence which is not zero at one of the two ends of the window of `t` gives an output
which is not zero at `t`; zeros give zeros. -/
structure Ends (L R lo hi : Nat) (net : List Nat → Option (List Nat)) : Prop where
  high : ∀ x a : List Nat, x.length = L → net x = some a → ∀ t, t * R + hi < L → x.getD (t * R + hi) 0 ≠ 0 → a.getD t 0 ≠ 0
  low : ∀ x a : List Nat, x.length = L → net x = some a → ∀ t, t < up L R → lo ≤ t * R → x.getD (t * R - lo) 0 ≠ 0 → a.getD t 0 ≠ 0
  zero : ∀ x a : List Nat, x.length = L → net x = some a → (∀ t, x.getD t 0 = 0) → ∀ t, a.getD t 0 = 0

/-- layers that add, on numbers -/
def sumP : Params Nat :=
  { bnIn := id, conv0 := List.sum, act := id, pool := List.sum, bn1 := fun _ _ => id, conv1 := fun _ _ => List.sum, bn2 := fun _ _ => id,
    conv2 := fun _ _ => List.sum, short := fun _ _ => id, add := (· + ·), bnFc := fun _ => id, fc := fun _ => id, bnOut := id, out := id }

/-- networks for all types of frames and all weights -/
abbrev Poly : Type 1 := (F : Type) → Params F → F → F → List F → Option (List F)

structure Window (L R lo hi : Nat) (net : Poly) : Prop where
  local_ : ∀ (F : Type) (P : Params F) (z zp : F), Net L R lo hi (net F P z zp)
  reach : Ends L R lo hi (net Nat sumP 0 0)

theorem getD_of_get {x y : List Nat} {p : Nat} (h : x[p]? = y[p]?) : x.getD p 0 = y.getD p 0 := by
  rw [List.getD_eq_getElem?_getD, List.getD_eq_getElem?_getD, h]

theorem Window.comp {L R1 lo1 hi1 R2 lo2 hi2 : Nat} {n1 n2 : Poly} (hR1 : 0 < R1) (hR2 : 0 < R2)
    (h1 : Window L R1 lo1 hi1 n1) (h2 : Window (up L R1) R2 lo2 hi2 n2) :
    Window L (R1 * R2) (lo1 + R1 * lo2) (hi1 + R1 * hi2) (fun F P z zp x => (n1 F P z zp x).bind (n2 F P z zp)) := by
  constructor
  · intro F P z zp
    constructor
    · intro x hx
      obtain ⟨a, e, ha⟩ := (h1.local_ F P z zp).total x hx
      obtain ⟨b, e', hb⟩ := (h2.local_ F P z zp).total a ha
      refine ⟨b, ?_, ?_⟩
      · rw [e]; exact e'
      · rw [hb, up_up L hR1 hR2]
    · intro x y a b hx hy ea eb t ht hp
      obtain ⟨a', e1, l1⟩ := (h1.local_ F P z zp).total x hx
      obtain ⟨b', e2, l2⟩ := (h1.local_ F P z zp).total y hy
      rw [e1, Option.bind_some] at ea
      rw [e2, Option.bind_some] at eb
      rw [← up_up L hR1 hR2] at ht
      refine (h2.local_ F P z zp).window a' b' a b l1 l2 ea eb t ht (fun q q1 q2 => ?_)
      rcases Nat.lt_or_ge q (up L R1) with hq | hq
      · refine (h1.local_ F P z zp).window x y a' b' hx hy e1 e2 q hq (fun p p1 p2 => hp p ?_ ?_)
        · have := Nat.mul_le_mul_right R1 q1
          have e : t * (R1 * R2) = t * R2 * R1 := by ring
          have e' : (q + lo2) * R1 = q * R1 + R1 * lo2 := by ring
          omega
        · have := Nat.mul_le_mul_right R1 q2
          have e : t * (R1 * R2) = t * R2 * R1 := by ring
          have e' : (t * R2 + hi2) * R1 = t * R2 * R1 + R1 * hi2 := by ring
          omega
      · rw [List.getElem?_eq_none (by omega), List.getElem?_eq_none (by omega)]
  · constructor
    · intro x a hx ea t ht hne
      obtain ⟨a', e1, l1⟩ := (h1.local_ Nat sumP 0 0).total x hx
      rw [e1, Option.bind_some] at ea
      have e : t * (R1 * R2) + (hi1 + R1 * hi2) = (t * R2 + hi2) * R1 + hi1 := by ring
      rw [e] at ht hne
      refine h2.reach.high a' a l1 ea t ?_ ?_
      · rw [lt_up hR1]; omega
      · exact h1.reach.high x a' hx e1 _ ht hne
    · intro x a hx ea t ht hlo hne
      obtain ⟨a', e1, l1⟩ := (h1.local_ Nat sumP 0 0).total x hx
      rw [e1, Option.bind_some] at ea
      rw [← up_up L hR1 hR2] at ht
      have e : t * (R1 * R2) = t * R2 * R1 := by ring
      have hl2 : lo2 ≤ t * R2 := by
        have : lo2 * R1 ≤ t * R2 * R1 := by rw [Nat.mul_comm lo2]; omega
        exact Nat.le_of_mul_le_mul_right this hR1
      have e3 : (t * R2 - lo2) * R1 = t * R2 * R1 - R1 * lo2 := by rw [Nat.sub_mul, Nat.mul_comm lo2]
      refine h2.reach.low a' a l1 ea t ht hl2 (h1.reach.low x a' hx e1 (t * R2 - lo2) ?_ ?_ ?_)
      · have := (lt_up hR2).1 ht
        omega
      · rw [e3]; omega
      · rw [e3]
        have : t * R2 * R1 - R1 * lo2 - lo1 = t * (R1 * R2) - (lo1 + R1 * lo2) := by omega
        rw [this]
        exact hne
    · intro x a hx ea h0
      obtain ⟨a', e1, l1⟩ := (h1.local_ Nat sumP 0 0).total x hx
      rw [e1, Option.bind_some] at ea
      exact h2.reach.zero a' a l1 ea (h1.reach.zero x a' hx e1 h0)

/-- a layer on single frames -/
theorem map_window (L : Nat) (g : (F : Type) → Params F → F → F) (hg : ∀ v, g Nat sumP v = 0 ↔ v = 0) :
    Window L 1 0 0 (fun F P _ _ x => some (x.map (g F P))) := by
  constructor
  · intro F P z zp
    constructor
    · intro x hx
      exact ⟨_, rfl, by rw [List.length_map, hx, up_one]⟩
    · intro x y a b hx hy ea eb t ht hp
      obtain rfl := Option.some.inj ea
      obtain rfl := Option.some.inj eb
      rw [List.getElem?_map, List.getElem?_map, hp t (by omega) (by omega)]
  · have key : ∀ (x : List Nat) (t : Nat), x.getD t 0 ≠ 0 → (x.map (g Nat sumP)).getD t 0 ≠ 0 := by
      intro x t h
      rw [List.getD_eq_getElem?_getD] at h ⊢
      rw [List.getElem?_map]
      cases hx : x[t]? with
      | none => rw [hx] at h; exact absurd rfl h
      | some v => rw [hx] at h; exact fun h' => h ((hg v).1 h')
    constructor
    · intro x a hx ea t ht hne
      obtain rfl := Option.some.inj ea
      exact key x t (by simpa using hne)
    · intro x a hx ea t ht hlo hne
      obtain rfl := Option.some.inj ea
      exact key x t (by simpa using hne)
    · intro x a hx ea h0 t
      obtain rfl := Option.some.inj ea
      have := h0 t
      rw [List.getD_eq_getElem?_getD] at this ⊢
      rw [List.getElem?_map]
      cases hx : x[t]? with
      | none => rfl
      | some v => rw [hx] at this; exact (hg v).2 this

/-- padding in front, conv of kernel `k` and stride `s` on `L` frames -/
def front (L k s : Nat) : Nat := ((up L s - 1) * s + k - L) / 2

theorem front_le {L k s : Nat} (hL : 0 < L) (hk : 0 < k) (hs : 0 < s) : 2 * front L k s ≤ k - 1 := by
  have h1 : (up L s - 1) * s < L := by
    rw [← lt_up hs]
    have := up_pos hL hs
    omega
  unfold front
  omega

theorem conv_length {F : Type} (k s : Nat) (z : F) (f : List F → F) (x : List F) : (conv k s z f x).length = up x.length s := by
  unfold conv up
  simp

theorem conv_get {F : Type} (k s : Nat) (z : F) (f : List F → F) (x : List F) {t : Nat} (ht : t < up x.length s) :
    (conv k s z f x)[t]? = some (f ((List.range k).map (fun j =>
      if t * s + j < front x.length k s then z else x.getD (t * s + j - front x.length k s) z))) := by
  have : t < (x.length + s - 1) / s := ht
  unfold conv
  simp only [List.getElem?_map]
  rw [List.getElem?_range this, Option.map_some]
  congr 2
  apply List.map_congr_left
  intro j _
  have hfr : front x.length k s = (((x.length + s - 1) / s - 1) * s + k - x.length) / 2 := rfl
  rw [← hfr]
  split_ifs with h
  · rw [List.getD_eq_getElem?_getD, List.getElem?_append_left (by rw [List.length_replicate]; exact h), List.getElem?_replicate, if_pos h]
    rfl
  · rw [List.getD_eq_getElem?_getD, List.getElem?_append_right (by rw [List.length_replicate]; omega), List.length_replicate, List.getD_eq_getElem?_getD]

theorem sum_ne {l : List Nat} {v : Nat} (h : v ∈ l) (h0 : v ≠ 0) : l.sum ≠ 0 := by
  induction l with
  | nil => cases h
  | cons a l ih =>
    rw [List.sum_cons]
    rcases List.mem_cons.1 h with rfl | h
    · omega
    · have := ih h
      omega

theorem conv_window {L k s : Nat} (hL : 0 < L) (hk : 0 < k) (hs : 0 < s) (zs : (F : Type) → F → F → F) (fs : (F : Type) → Params F → List F → F)
    (hf : ∀ l : List Nat, fs Nat sumP l = l.sum) (hz : zs Nat 0 0 = 0) :
    Window L s (front L k s) (k - 1 - front L k s) (fun F P z zp x => some (conv k s (zs F z zp) (fs F P) x)) := by
  have hfr := front_le hL hk hs
  constructor
  · intro F P z zp
    constructor
    · intro x hx
      exact ⟨_, rfl, by rw [conv_length, hx]⟩
    · intro x y a b hx hy ea eb t ht hp
      obtain rfl := Option.some.inj ea
      obtain rfl := Option.some.inj eb
      rw [conv_get _ _ _ _ _ (by rw [hx]; exact ht), conv_get _ _ _ _ _ (by rw [hy]; exact ht), hx, hy]
      congr 2
      apply List.map_congr_left
      intro j hj
      have hj := List.mem_range.1 hj
      split_ifs with h
      · rfl
      · rw [List.getD_eq_getElem?_getD, List.getD_eq_getElem?_getD, hp _ (by omega) (by omega)]
  · have key : ∀ (x : List Nat) (t p j : Nat), x.length = L → t < up L s → j < k → t * s + j = p + front L k s → x.getD p 0 ≠ 0 →
        (conv k s (zs Nat 0 0) (fs Nat sumP) x).getD t 0 ≠ 0 := by
      intro x t p j hx ht hj hp hne
      rw [List.getD_eq_getElem?_getD, conv_get _ _ _ _ _ (by rw [hx]; exact ht), hx, Option.getD_some]
      rw [hf]
      refine sum_ne (v := x.getD p 0) ?_ hne
      refine List.mem_map.2 ⟨j, List.mem_range.2 hj, ?_⟩
      rw [if_neg (by omega)]
      have hpl : p < x.length := by
        by_contra hcon
        rw [List.getD_eq_getElem?_getD, List.getElem?_eq_none (by omega)] at hne
        exact hne rfl
      rw [hp, Nat.add_sub_cancel, List.getD_eq_getElem?_getD, List.getD_eq_getElem?_getD, List.getElem?_eq_getElem hpl]
      rfl
    constructor
    · intro x a hx ea t ht hne
      obtain rfl := Option.some.inj ea
      exact key x t (t * s + (k - 1 - front L k s)) (k - 1) hx (by rw [lt_up hs]; omega) (by omega) (by omega) hne
    · intro x a hx ea t ht hlo hne
      obtain rfl := Option.some.inj ea
      exact key x t (t * s - front L k s) 0 hx ht hk (by omega) hne
    · intro x a hx ea h0 t
      obtain rfl := Option.some.inj ea
      rw [List.getD_eq_getElem?_getD]
      rcases Nat.lt_or_ge t (up L s) with ht | ht
      · rw [conv_get _ _ _ _ _ (by rw [hx]; exact ht), Option.getD_some, hf, hz]
        have : (List.range k).map (fun j => if t * s + j < front x.length k s then 0 else x.getD (t * s + j - front x.length k s) 0) =
            (List.range k).map (fun _ => 0) := by
          apply List.map_congr_left
          intro j _
          split_ifs
          · rfl
          · exact h0 _
        rw [this, List.map_const', List.sum_replicate]
        simp
      · rw [List.getElem?_eq_none (by rw [conv_length, hx]; exact ht)]
        rfl

theorem Window.congr {L R lo hi : Nat} {n1 n2 : Poly} (h : ∀ F P z zp x, x.length = L → n1 F P z zp x = n2 F P z zp x)
    (h1 : Window L R lo hi n1) : Window L R lo hi n2 := by
  constructor
  · intro F P z zp
    constructor
    · intro x hx
      rw [← h _ _ _ _ _ hx]
      exact (h1.local_ F P z zp).total x hx
    · intro x y a b hx hy
      rw [← h _ _ _ _ _ hx, ← h _ _ _ _ _ hy]
      exact (h1.local_ F P z zp).window x y a b hx hy
  · constructor
    · intro x a hx
      rw [← h _ _ _ _ _ hx]
      exact h1.reach.high x a hx
    · intro x a hx
      rw [← h _ _ _ _ _ hx]
      exact h1.reach.low x a hx
    · intro x a hx
      rw [← h _ _ _ _ _ hx]
      exact h1.reach.zero x a hx

/-- the sum of a branch and of a shortcut that looks at one frame -/
theorem add_window {L R lo hi : Nat} {m sc : Poly} (h1 : Window L R lo hi m) (h2 : Window L R 0 0 sc) :
    Window L R lo hi (fun F P z zp x => (m F P z zp x).bind (fun h => (sc F P z zp x).bind (fun y => addSeq P.add h y))) := by
  have hadd : ∀ {F : Type} (f : F → F → F) (a b : List F), a.length = b.length → addSeq f a b = some (List.zipWith f a b) := by
    intro F f a b h
    unfold addSeq
    rw [if_pos h]
  constructor
  · intro F P z zp
    constructor
    · intro x hx
      obtain ⟨a, e, ha⟩ := (h1.local_ F P z zp).total x hx
      obtain ⟨b, e', hb⟩ := (h2.local_ F P z zp).total x hx
      refine ⟨List.zipWith P.add a b, ?_, ?_⟩
      · rw [e, e', Option.bind_some, Option.bind_some, hadd _ _ _ (by omega)]
      · rw [List.length_zipWith, ha, hb, min_self]
    · intro x y a b hx hy ea eb t ht hp
      obtain ⟨a1, e1, l1⟩ := (h1.local_ F P z zp).total x hx
      obtain ⟨a2, e2, l2⟩ := (h2.local_ F P z zp).total x hx
      obtain ⟨b1, e3, l3⟩ := (h1.local_ F P z zp).total y hy
      obtain ⟨b2, e4, l4⟩ := (h2.local_ F P z zp).total y hy
      rw [e1, e2, Option.bind_some, Option.bind_some, hadd _ _ _ (by omega)] at ea
      rw [e3, e4, Option.bind_some, Option.bind_some, hadd _ _ _ (by omega)] at eb
      obtain rfl := Option.some.inj ea
      obtain rfl := Option.some.inj eb
      have w1 := (h1.local_ F P z zp).window x y a1 b1 hx hy e1 e3 t ht hp
      have w2 := (h2.local_ F P z zp).window x y a2 b2 hx hy e2 e4 t ht (fun p p1 p2 => hp p (by omega) (by omega))
      rw [List.getElem?_zipWith, List.getElem?_zipWith, w1, w2]
  · have key : ∀ (x a : List Nat) (t : Nat), x.length = L →
        (m Nat sumP 0 0 x).bind (fun h => (sc Nat sumP 0 0 x).bind (fun y => addSeq sumP.add h y)) = some a → t < up L R →
        (∀ a1, m Nat sumP 0 0 x = some a1 → a1.getD t 0 ≠ 0) → a.getD t 0 ≠ 0 := by
      intro x a t hx ea ht hm
      obtain ⟨a1, e1, l1⟩ := (h1.local_ Nat sumP 0 0).total x hx
      obtain ⟨a2, e2, l2⟩ := (h2.local_ Nat sumP 0 0).total x hx
      rw [e1, e2, Option.bind_some, Option.bind_some, hadd _ _ _ (by omega)] at ea
      obtain rfl := Option.some.inj ea
      have := hm a1 e1
      rw [List.getD_eq_getElem?_getD, List.getElem?_eq_getElem (by omega), Option.getD_some] at this
      rw [List.getD_eq_getElem?_getD, List.getElem?_zipWith, List.getElem?_eq_getElem (by omega), List.getElem?_eq_getElem (by omega)]
      show a1[t] + a2[t] ≠ 0
      omega
    constructor
    · intro x a hx ea t ht hne
      obtain ⟨a1, e1, l1⟩ := (h1.local_ Nat sumP 0 0).total x hx
      by_cases hR : 0 < R
      · exact key x a t hx ea (by rw [lt_up hR]; omega) (fun a1 e1 => h1.reach.high x a1 hx e1 t ht hne)
      · obtain rfl : R = 0 := by omega
        have := h1.reach.high x a1 hx e1 t ht hne
        rw [List.getD_eq_getElem?_getD, List.getElem?_eq_none (by rw [l1]; unfold up; simp)] at this
        exact absurd rfl this
    · intro x a hx ea t ht hlo hne
      exact key x a t hx ea ht (fun a1 e1 => h1.reach.low x a1 hx e1 t ht hlo hne)
    · intro x a hx ea h0 t
      obtain ⟨a1, e1, l1⟩ := (h1.local_ Nat sumP 0 0).total x hx
      obtain ⟨a2, e2, l2⟩ := (h2.local_ Nat sumP 0 0).total x hx
      rw [e1, e2, Option.bind_some, Option.bind_some, hadd _ _ _ (by omega)] at ea
      obtain rfl := Option.some.inj ea
      have z1 := h1.reach.zero x a1 hx e1 h0 t
      have z2 := h2.reach.zero x a2 hx e2 h0 t
      rcases Nat.lt_or_ge t (up L R) with ht | ht
      · rw [List.getD_eq_getElem?_getD, List.getElem?_eq_getElem (by omega), Option.getD_some] at z1 z2
        rw [List.getD_eq_getElem?_getD, List.getElem?_zipWith, List.getElem?_eq_getElem (by omega), List.getElem?_eq_getElem (by omega)]
        show a1[t] + a2[t] = 0
        omega
      · rw [List.getD_eq_getElem?_getD, List.getElem?_eq_none (by rw [List.length_zipWith]; omega)]
        rfl

end Hyp.Keras.ResNet
