import Verif.Keras.SeqEmbed
import Verif.Keras.PoolProps
import Mathlib.Tactic.Ring
import Mathlib.Tactic.Linarith
import Mathlib.Data.List.GetD

/-!
C148: chunk-by-chunk encoding of long sequences gives the frames of the whole sequence.
-/

namespace Hyp.Keras

variable {α β : Type}

/-- Specification: frame `i` of a sequence, zero outside of it. -/
def padAt (z : α) (x : List α) (i : Nat) : α := x.getD i z

/-- Specification: output frame `t` of an encoder that computes every output frame by the same function `φ` of the input
frames from `t r` on. -/
def encFrame (φ : (Nat → α) → β) (r : Nat) (z : α) (x : List α) (t : Nat) : β := φ (fun o => padAt z x (t * r + o))

/-- `φ` looks at the `r` frames of its output frame and at `rc` frames to the right of them -/
def Looks (φ : (Nat → α) → β) (r rc : Nat) : Prop := ∀ f g : Nat → α, (∀ o, o < r + rc → f o = g o) → φ f = φ g

/-- the encoder network on a chunk -/
def EncodesBy (enc : List α → List β) (φ : (Nat → α) → β) (r P : Nat) (z : α) : Prop :=
  ∀ x, enc x = (List.range P).map (encFrame φ r z x)

/-- where the frame at position `p` of the result comes from -/
def srcPos (L N ps plc p : Nat) : Nat := if L ≤ N ∨ p < ps + plc then p else p - plc

theorem sliceSet_spec (y : List β) (j k : Nat) (v : List β) (h1 : j ≤ k) (h2 : k ≤ y.length) (h3 : v.length = k - j) :
    ∃ y', sliceSet y j k v = some y' ∧ y'.length = y.length ∧ (∀ p, p < j → y'[p]? = y[p]?) ∧ ∀ p, j ≤ p → p < k → y'[p]? = v[p - j]? := by
  refine ⟨_, if_pos ⟨h1, h2, h3⟩, ?_, ?_, ?_⟩
  · simp only [List.length_append, List.length_take, List.length_drop, h3]; omega
  · intro p hp
    rw [List.append_assoc, List.getElem?_append_left (by rw [List.length_take]; omega), List.getElem?_take_of_lt hp]
  · intro p hp hk
    have ht : (y.take j).length = j := by rw [List.length_take]; omega
    rw [List.getElem?_append_left (by rw [List.length_append, ht, h3]; omega), List.getElem?_append_right (by rw [ht]; exact hp), ht]

section
variable {c : EmbCfg} {enc : List α → List β} {φ : (Nat → α) → β} {z : α} {rc ps plc prc : Nat} {x : List α}

/-- the state before chunk `i` -/
structure EmbInv (c : EmbCfg) (φ : (Nat → α) → β) (z : α) (rc ps plc : Nat) (x : List α) (i : Nat) (s : EmbState α β) : Prop where
  jin : s.jin = i * (ps * c.r)
  jout : s.jout = if i = 0 then 0 else i * ps + plc
  ylen : s.y.length = x.length / c.r
  xlen : s.xi.length = c.N
  done : ∀ p, p < s.jout → p < x.length / c.r → (srcPos x.length c.N ps plc p + 1) * c.r + rc ≤ x.length →
    s.y[p]? = some (encFrame φ c.r z x (srcPos x.length c.N ps plc p))

/-- what one chunk writes -/
theorem chunk_core (hr : 0 < c.r) (hN : c.N = (ps + plc + prc) * c.r) (hP : c.P = ps + plc + prc) (hl : c.left = plc * c.r) (hri : c.right = prc * c.r)
    (hps : 0 < ps) (hrc : rc ≤ c.right) (hlook : Looks φ c.r rc) (henc : EncodesBy enc φ c.r c.P z)
    (i : Nat) (s : EmbState α β) (hs : EmbInv c φ z rc ps plc x i s)
    (hfirst : i = 0 ∨ i * (ps * c.r) + c.left + c.right < x.length)
    (hL : i ≠ 0 → c.N < x.length) :
    ∃ s', embStep c enc x s i = some s' ∧ s'.y.length = x.length / c.r ∧ s'.xi.length = c.N ∧ s'.jin = (i + 1) * (ps * c.r) ∧
      s'.jout = (i + 1) * ps + plc ∧
      (∀ p, p < s.jout → s'.y[p]? = s.y[p]?) ∧
      ∀ p, s.jout ≤ p → p < s.jout + c.P → p < x.length / c.r →
        (p < (i + 1) * ps + plc ∨ x.length ≤ i * (ps * c.r) + c.N) →
        (srcPos x.length c.N ps plc p + 1) * c.r + rc ≤ x.length → (i = 0 → x.length ≤ c.N ∨ p < ps + plc) →
        s'.y[p]? = some (encFrame φ c.r z x (srcPos x.length c.N ps plc p)) := by
  have hshift : c.N - c.left - c.right = ps * c.r := by
    rw [hN, hl, hri]
    have : (ps + plc + prc) * c.r = ps * c.r + plc * c.r + prc * c.r := by ring
    omega
  have hsd : ps * c.r / c.r = ps := Nat.mul_div_cancel _ hr
  have hld : c.left / c.r = plc := by rw [hl]; exact Nat.mul_div_cancel _ hr
  -- positions
  have hjoutle : s.jout ≤ x.length / c.r := by
    rw [hs.jout]
    split_ifs with h0
    · exact Nat.zero_le _
    · rcases hfirst with h | h
      · exact absurd h h0
      · rw [Nat.le_div_iff_mul_le hr]
        rw [hl] at h
        have : (i * ps + plc) * c.r = i * (ps * c.r) + plc * c.r := by ring
        omega
  have hjin : s.jin ≤ x.length := by
    rw [hs.jin]
    rcases hfirst with h | h
    · rw [h]; simp
    · omega
  unfold embStep
  simp only [hshift, hsd, hld]
  generalize hkin : min (s.jin + c.N) x.length = kin
  generalize hkout : min (s.jout + c.P) (x.length / c.r) = kout
  generalize hxi : (x.drop s.jin).take (kin - s.jin) ++ s.xi.drop (kin - s.jin) = xi
  have hlinlen : ((x.drop s.jin).take (kin - s.jin)).length = kin - s.jin := by
    rw [List.length_take, List.length_drop]; omega
  have hxilen : xi.length = c.N := by
    rw [← hxi, List.length_append, hlinlen, List.length_drop, hs.xlen]; omega
  have hxiget : ∀ k, k < kin - s.jin → xi.getD k z = x.getD (s.jin + k) z := by
    intro k hk
    rw [← hxi, List.getD_eq_getElem?_getD, List.getElem?_append_left (by rw [hlinlen]; exact hk), List.getElem?_take_of_lt hk, List.getElem?_drop,
      ← List.getD_eq_getElem?_getD]
  have henclen : (enc xi).length = c.P := by rw [henc]; simp
  obtain ⟨y', hy', hylen, hlow, hmid⟩ := sliceSet_spec s.y s.jout kout ((enc xi).take (kout - s.jout)) (by omega) (by rw [hs.ylen]; omega)
    (by rw [List.length_take, henclen]; omega)
  rw [hy']
  refine ⟨_, rfl, by rw [← hs.ylen]; exact hylen, hxilen, ?_, ?_, hlow, ?_⟩
  · show s.jin + ps * c.r = _
    rw [hs.jin]; ring
  · show s.jout + ps + _ = _
    rw [hs.jout]
    split_ifs with h0
    · rw [h0]; ring
    · have : (i + 1) * ps = i * ps + ps := by ring
      omega
  · intro p hp1 hp2 hp3 hp4 hgood hi0
    show y'[p]? = _
    rw [hmid p hp1 (by omega), List.getElem?_take_of_lt (by omega), henc xi, List.getElem?_map, List.getElem?_range (by omega), Option.map_some]
    congr 1
    -- the source position
    have hsrc : srcPos x.length c.N ps plc p * c.r = s.jin + (p - s.jout) * c.r := by
      unfold srcPos
      rw [hs.jin]
      rcases Nat.eq_zero_or_pos i with h0 | h0
      · have hj : s.jout = 0 := by rw [hs.jout, if_pos h0]
        rw [if_pos (hi0 h0), h0, hj]; simp
      · have hj : s.jout = i * ps + plc := by rw [hs.jout, if_neg (by omega)]
        have hge : ps ≤ i * ps := Nat.le_mul_of_pos_left ps h0
        have hLN := hL (by omega)
        rw [if_neg (by rw [not_or]; omega)]
        obtain ⟨u, rfl⟩ := Nat.exists_eq_add_of_le hp1
        rw [hj] at hp1 ⊢
        have e1 : i * ps + plc + u - plc = i * ps + u := by omega
        have e2 : i * ps + plc + u - (i * ps + plc) = u := by omega
        rw [e1, e2]
        ring
    unfold encFrame
    apply hlook
    intro o ho
    show padAt z xi _ = padAt z x _
    unfold padAt
    rw [hsrc]
    have hgood' : s.jin + (p - s.jout) * c.r + c.r + rc ≤ x.length := by
      have : (srcPos x.length c.N ps plc p + 1) * c.r = srcPos x.length c.N ps plc p * c.r + c.r := by ring
      omega
    have hkN : (p - s.jout) * c.r + o < c.N := by
      rcases hp4 with h | h
      · -- within the part that the next chunk does not write
        have hu : p - s.jout + 1 ≤ ps + plc := by
          rw [hs.jout]
          split_ifs with h0
          · rw [h0] at h; omega
          · have : (i + 1) * ps = i * ps + ps := by ring
            omega
        have : (p - s.jout + 1) * c.r ≤ (ps + plc) * c.r := Nat.mul_le_mul_right _ hu
        have e1 : (p - s.jout + 1) * c.r = (p - s.jout) * c.r + c.r := by ring
        have e2 : (ps + plc + prc) * c.r = (ps + plc) * c.r + prc * c.r := by ring
        rw [hN, e2]
        rw [hri] at hrc
        omega
      · rw [hs.jin] at hgood'
        omega
    rw [hxiget _ (by omega)]
    congr 1
    omega

theorem frames_core (hr : 0 < c.r) (hN : c.N = (ps + plc + prc) * c.r) (hP : c.P = ps + plc + prc) (hl : c.left = plc * c.r) (hri : c.right = prc * c.r)
    (hb : c.r ∣ c.beginC) (he : c.r ∣ c.endC) (hps : 0 < ps) (hrc : rc ≤ c.right) (hlook : Looks φ c.r rc) (henc : EncodesBy enc φ c.r c.P z) (zy : β) :
    ∃ y, predictFrames c enc z zy x = some (y, embMask (x.length / c.r) (c.beginC / c.r) (c.endC / c.r)) ∧ y.length = x.length / c.r ∧
      ∀ p, p < x.length / c.r → (srcPos x.length c.N ps plc p + 1) * c.r + rc ≤ x.length →
        y[p]? = some (encFrame φ c.r z x (srcPos x.length c.N ps plc p)) := by
  have hshift : c.N - c.left - c.right = ps * c.r := by
    rw [hN, hl, hri]
    have : (ps + plc + prc) * c.r = ps * c.r + plc * c.r + prc * c.r := by ring
    omega
  have hS : 0 < ps * c.r := Nat.mul_pos hps hr
  have hlt : c.left + c.right < c.N := by omega
  unfold predictFrames
  rw [hshift]
  have g1 : (0 < c.r ∧ c.r ∣ c.left ∧ c.r ∣ c.right ∧ c.r ∣ c.beginC ∧ c.r ∣ c.endC) :=
    ⟨hr, ⟨plc, by rw [hl, Nat.mul_comm]⟩, ⟨prc, by rw [hri, Nat.mul_comm]⟩, hb, he⟩
  simp only [g1, hlt, and_self, guard_true, Option.pure_def, Option.bind_eq_bind, Option.bind_some]
  generalize hm : (x.length - c.N + (ps * c.r - 1)) / (ps * c.r) = m
  have hm1 : x.length ≤ m * (ps * c.r) + c.N := by
    have h := Nat.div_add_mod (x.length - c.N + (ps * c.r - 1)) (ps * c.r)
    have h2 := Nat.mod_lt (x.length - c.N + (ps * c.r - 1)) hS
    rw [hm, Nat.mul_comm] at h
    omega
  have hm2 : 0 < m → (m - 1) * (ps * c.r) + c.N < x.length := by
    intro h0
    have h := Nat.div_mul_le_self (x.length - c.N + (ps * c.r - 1)) (ps * c.r)
    rw [hm] at h
    obtain ⟨k, rfl⟩ : ∃ k, m = k + 1 := ⟨m - 1, by omega⟩
    have e : (k + 1) * (ps * c.r) = k * (ps * c.r) + ps * c.r := by ring
    rw [Nat.add_sub_cancel]
    omega
  have hloop : ∀ i, i ≤ m → ∃ s, (List.range i).foldlM (embStep c enc x) { xi := List.replicate c.N z, y := List.replicate (x.length / c.r) zy, jin := 0, jout := 0 } = some s ∧
      EmbInv c φ z rc ps plc x i s := by
    intro i
    induction i with
    | zero =>
      intro _
      exact ⟨_, rfl, by simp, by simp, by simp, by simp, by simp⟩
    | succ i ih =>
      intro hi
      obtain ⟨s, hs, hI⟩ := ih (by omega)
      have hfull : i * (ps * c.r) + c.N < x.length := by
        have := hm2 (by omega)
        have h3 : i * (ps * c.r) ≤ (m - 1) * (ps * c.r) := Nat.mul_le_mul_right _ (by omega)
        omega
      obtain ⟨s', h1, h2, h3, h4, h5, h6, h7⟩ := chunk_core (prc := prc) hr hN hP hl hri hps hrc hlook henc i s hI (Or.inr (by omega)) (fun _ => by omega)
      refine ⟨s', ?_, ⟨h4, ?_, h2, h3, ?_⟩⟩
      · rw [List.range_succ, List.foldlM_append, hs]
        simp [h1]
      · rw [h5, if_neg (by omega)]
      · intro p hp hpn hgood
        rw [h5] at hp
        rcases Nat.lt_or_ge p s.jout with h | h
        · rw [h6 p h]
          exact hI.done p h hpn hgood
        · refine h7 p h ?_ hpn (Or.inl hp) hgood (fun h0 => ?_)
          · rw [hP]
            have hj := hI.jout
            split_ifs at hj with h0
            · rw [h0] at hp; omega
            · have : (i + 1) * ps = i * ps + ps := by ring
              omega
          · right; rw [h0] at hp; omega
  obtain ⟨s, hs, hI⟩ := hloop m le_rfl
  have hfirst : m = 0 ∨ m * (ps * c.r) + c.left + c.right < x.length := by
    rcases Nat.eq_zero_or_pos m with h | h
    · exact Or.inl h
    · right
      have := hm2 h
      obtain ⟨k, rfl⟩ : ∃ k, m = k + 1 := ⟨m - 1, by omega⟩
      rw [Nat.add_sub_cancel] at this
      have e : (k + 1) * (ps * c.r) = k * (ps * c.r) + ps * c.r := by ring
      omega
  obtain ⟨s', h1, h2, h3, h4, h5, h6, h7⟩ := chunk_core (prc := prc) hr hN hP hl hri hps hrc hlook henc m s hI hfirst
    (fun h0 => by have := hm2 (by omega); omega)
  refine ⟨s'.y, ?_, h2, ?_⟩
  · rw [List.range_succ, List.foldlM_append, hs]
    simp [h1]
  · intro p hp hgood
    rcases Nat.lt_or_ge p s.jout with h | h
    · rw [h6 p h]
      exact hI.done p h hp hgood
    · refine h7 p h ?_ hp (Or.inr hm1) hgood (fun h0 => Or.inl ?_)
      · have hj := hI.jout
        have hle : x.length / c.r ≤ m * ps + c.P := by
          rw [Nat.div_le_iff_le_mul_add_pred hr]
          have e : c.r * (m * ps + c.P) = m * (ps * c.r) + c.N := by rw [hP, hN]; ring
          omega
        split_ifs at hj with h0
        · rw [h0] at hle; omega
        · omega
      · rw [h0] at hm1; omega

end

theorem embMask_spec (n b e : Nat) : (embMask n b e).length = n ∧
    ∀ p, (embMask n b e)[p]? = some true ↔ b ≤ p ∧ p < (if e ≤ n then n - e else n - (e - n)) := by
  unfold embMask
  dsimp only
  generalize hs : (if e ≤ n then n - e else n - (e - n)) = st
  have hst : st ≤ n := by rw [← hs]; split_ifs <;> omega
  have hl : ((List.replicate (min b n) false ++ List.replicate (n - min b n) true).take st).length = st := by
    simp only [List.length_take, List.length_append, List.length_replicate]; omega
  constructor
  · rw [List.length_append, hl, List.length_replicate]; omega
  · intro p
    rcases Nat.lt_or_ge p st with h | h
    · rw [List.getElem?_append_left (by rw [hl]; exact h), List.getElem?_take_of_lt h]
      rcases Nat.lt_or_ge p (min b n) with h2 | h2
      · rw [List.getElem?_append_left (by rw [List.length_replicate]; exact h2), List.getElem?_replicate, if_pos h2]
        simp
        omega
      · rw [List.getElem?_append_right (by rw [List.length_replicate]; exact h2), List.getElem?_replicate, if_pos (by rw [List.length_replicate]; omega)]
        simp
        omega
    · rw [List.getElem?_append_right (by rw [hl]; exact h), List.getElem?_replicate, hl]
      split_ifs <;> simp <;> omega

/-- **C148.** With `left_context = 0`, a network that computes every output frame from its `r` input frames and at most
`right_context` frames after them, and `end_context` covering what it looks ahead: for sequences of any length from
`end_context` on, every frame that the mask lets through is the frame the encoder would compute on the whole sequence, and the
mask lets through exactly the frames between the begin and the end context. -/
theorem C148_whole (c : EmbCfg) (enc : List α → List β) (φ : (Nat → α) → β) (z : α) (zy : β) (rc : Nat) (x : List α) (hr : 0 < c.r) (hN : c.r ∣ c.N)
    (hP : c.P = c.N / c.r) (hl : c.left = 0) (hri : c.r ∣ c.right) (hb : c.r ∣ c.beginC) (he : c.r ∣ c.endC) (hlt : c.right < c.N)
    (hrc : rc ≤ c.right) (hend : rc ≤ c.endC) (hx : c.endC ≤ x.length) (hlook : Looks φ c.r rc) (henc : EncodesBy enc φ c.r c.P z) :
    ∃ y mask, predictFrames c enc z zy x = some (y, mask) ∧ y.length = x.length / c.r ∧ mask.length = x.length / c.r ∧
      (∀ p : Nat, mask[p]? = some true ↔ c.beginC ≤ p * c.r ∧ (p + 1) * c.r + c.endC ≤ x.length) ∧
      ∀ p : Nat, mask[p]? = some true → y[p]? = some (encFrame φ c.r z x p) := by
  obtain ⟨nn, hn⟩ := hN
  obtain ⟨prc, hprc⟩ := hri
  obtain ⟨e, hee⟩ := he
  obtain ⟨b, hbb⟩ := hb
  have hPn : c.P = nn := by rw [hP, hn]; exact Nat.mul_div_cancel_left _ hr
  have hlt' : prc < nn := by
    rw [hprc, hn] at hlt
    exact Nat.lt_of_mul_lt_mul_left hlt
  obtain ⟨y, h1, h2, h3⟩ := frames_core (c := c) (enc := enc) (φ := φ) (z := z) (rc := rc) (ps := nn - prc) (plc := 0) (prc := prc) (x := x) hr
    (by rw [hn, Nat.mul_comm]; congr 1; omega) (by rw [hPn]; omega) (by rw [hl, Nat.zero_mul]) (by rw [hprc, Nat.mul_comm]) ⟨b, hbb⟩ ⟨e, hee⟩ (by omega) hrc hlook henc zy
  have heq : c.endC / c.r = e := by rw [hee]; exact Nat.mul_div_cancel_left _ hr
  have hbq : c.beginC / c.r = b := by rw [hbb]; exact Nat.mul_div_cancel_left _ hr
  have hen : e ≤ x.length / c.r := by rw [← heq]; exact Nat.div_le_div_right hx
  obtain ⟨m1, m2⟩ := embMask_spec (x.length / c.r) (c.beginC / c.r) (c.endC / c.r)
  have hm : ∀ p : Nat, (embMask (x.length / c.r) (c.beginC / c.r) (c.endC / c.r))[p]? = some true ↔ c.beginC ≤ p * c.r ∧ (p + 1) * c.r + c.endC ≤ x.length := by
    intro p
    rw [m2, heq, hbq, if_pos hen, hbb, Nat.mul_comm p, Nat.mul_le_mul_left_iff hr]
    have e1 : p < x.length / c.r - e ↔ (p + 1) + e ≤ x.length / c.r := by omega
    rw [e1, Nat.le_div_iff_mul_le hr, hee]
    have e2 : (p + 1 + e) * c.r = (p + 1) * c.r + c.r * e := by ring
    rw [e2]
  refine ⟨y, _, h1, h2, m1, hm, ?_⟩
  intro p hp
  have hsrc : srcPos x.length c.N (nn - prc) 0 p = p := by unfold srcPos; split_ifs <;> rfl
  have hg := (hm p).1 hp
  have := h3 p (by
    have := (m2 p).1 hp
    rw [heq, if_pos hen] at this
    omega) (by rw [hsrc]; omega)
  rw [hsrc] at this
  exact this

/-- frames and zero/one mask as the weighted frames of the pooling layers, seq_embed.py:197 (`_apply_pooling`) -/
noncomputable def embFrames {D : Nat} (y : List (Fin D → ℝ)) (mask : List Bool) : List (Frame D) :=
  expandW (y.zip (mask.map (fun b => if b then (1 : ℝ) else 0)))

/-- **C148 (pooling).** Under the hypotheses of `C148_whole`, the pooled statistics of a sequence of any length are those of the
frames that the encoder computes on the whole sequence, between the begin and the end context, each with weight one. -/
theorem C148_pool {D : Nat} (c : EmbCfg) (enc : List α → List (Fin D → ℝ)) (φ : (Nat → α) → (Fin D → ℝ)) (z : α) (zy : Fin D → ℝ) (rc : Nat) (x : List α)
    (hr : 0 < c.r) (hN : c.r ∣ c.N)
    (hP : c.P = c.N / c.r) (hl : c.left = 0) (hri : c.r ∣ c.right) (hb : c.r ∣ c.beginC) (he : c.r ∣ c.endC) (hlt : c.right < c.N)
    (hrc : rc ≤ c.right) (hend : rc ≤ c.endC) (hx : c.endC ≤ x.length) (hlook : Looks φ c.r rc) (henc : EncodesBy enc φ c.r c.P z) :
    ∃ y mask, predictFrames c enc z zy x = some (y, mask) ∧
      ∀ g : List (Frame D), g = expandW (((List.range (x.length / c.r)).filter
          (fun p => decide (c.beginC ≤ p * c.r ∧ (p + 1) * c.r + c.endC ≤ x.length))).map (fun p => (encFrame φ c.r z x p, 1))) →
        wAvg (embFrames y mask) = wAvg g ∧ wMeanStd (embFrames y mask) = wMeanStd g ∧ wMeanLogVar (embFrames y mask) = wMeanLogVar g := by
  obtain ⟨y, mask, h1, h2, h3, h4, h5⟩ := C148_whole c enc φ z zy rc x hr hN hP hl hri hb he hlt hrc hend hx hlook henc
  refine ⟨y, mask, h1, ?_⟩
  rintro g rfl
  have key := pools_congr (embFrames y mask) (expandW (((List.range (x.length / c.r)).filter
          (fun p => decide (c.beginC ≤ p * c.r ∧ (p + 1) * c.r + c.endC ≤ x.length))).map (fun p => (encFrame φ c.r z x p, 1)))) ?_
  · exact ⟨key.1, key.2.1, key.2.2.1⟩
  intro d q
  have hy : y = (List.range (x.length / c.r)).map (fun p => y.getD p zy) := by
    apply List.ext_getElem
    · simp [h2]
    · intro n ha hb'
      simp [List.getD_eq_getElem?_getD, List.getElem?_eq_getElem ha]
  have hm : mask = (List.range (x.length / c.r)).map (fun p => mask.getD p false) := by
    apply List.ext_getElem
    · simp [h3]
    · intro n ha hb'
      simp [List.getD_eq_getElem?_getD, List.getElem?_eq_getElem ha]
  unfold embFrames expandW
  rw [hy, hm]
  generalize List.range (x.length / c.r) = l
  induction l with
  | nil => rfl
  | cons p l ih =>
    simp only [List.map_cons, List.zip_cons_cons, List.sum_cons, List.filter_cons]
    by_cases hc : c.beginC ≤ p * c.r ∧ (p + 1) * c.r + c.endC ≤ x.length
    · have hp := (h4 p).2 hc
      rw [if_pos (decide_eq_true hc)]
      simp only [List.map_cons, List.sum_cons]
      rw [ih]
      simp [List.getD_eq_getElem?_getD, hp, h5 p hp]
    · have hp : mask.getD p false = false := by
        rw [List.getD_eq_getElem?_getD]
        rcases hmp : mask[p]? with _ | b
        · rfl
        · cases b
          · rfl
          · exact absurd ((h4 p).1 hmp) hc
      have hd : ¬ (decide (c.beginC ≤ p * c.r ∧ (p + 1) * c.r + c.endC ≤ x.length) = true) := by simpa using hc
      rw [hp, if_neg hd, ih]
      simp

/-- **C148 (defect: left context).** With `left_context > 0` and more frames than one chunk, every frame from the second chunk on
is written `left_context` frames too late: position `p` holds the encoding of the position `left_context / r` before. So
the encodings of the last `left_context` frames are nowhere and others occur twice. -/
theorem C148_left_context (c : EmbCfg) (enc : List α → List β) (φ : (Nat → α) → β) (z : α) (zy : β) (rc : Nat) (x : List α) (hr : 0 < c.r) (hN : c.r ∣ c.N)
    (hP : c.P = c.N / c.r) (hl : c.r ∣ c.left) (hri : c.r ∣ c.right) (hb : c.r ∣ c.beginC) (he : c.r ∣ c.endC) (hlt : c.left + c.right < c.N)
    (hrc : rc ≤ c.right) (hx : c.N < x.length) (hlook : Looks φ c.r rc) (henc : EncodesBy enc φ c.r c.P z) :
    ∃ y mask, predictFrames c enc z zy x = some (y, mask) ∧
      ∀ p : Nat, c.N ≤ p * c.r + c.right → (p + 1) * c.r + rc ≤ x.length → y[p]? = some (encFrame φ c.r z x (p - c.left / c.r)) := by
  obtain ⟨nn, hn⟩ := hN
  obtain ⟨prc, hprc⟩ := hri
  obtain ⟨plc, hplc⟩ := hl
  have hPn : c.P = nn := by rw [hP, hn]; exact Nat.mul_div_cancel_left _ hr
  have hlt' : plc + prc < nn := by
    rw [hprc, hplc, hn, ← Nat.mul_add] at hlt
    exact Nat.lt_of_mul_lt_mul_left hlt
  obtain ⟨y, h1, h2, h3⟩ := frames_core (c := c) (enc := enc) (φ := φ) (z := z) (rc := rc) (ps := nn - plc - prc) (plc := plc) (prc := prc) (x := x) hr
    (by rw [hn, Nat.mul_comm]; congr 1; omega) (by rw [hPn]; omega) (by rw [hplc, Nat.mul_comm]) (by rw [hprc, Nat.mul_comm]) hb he (by omega) hrc hlook henc zy
  have hld : c.left / c.r = plc := by rw [hplc]; exact Nat.mul_div_cancel_left _ hr
  refine ⟨y, _, h1, ?_⟩
  intro p hp hgood
  have hp' : nn - prc ≤ p := by
    rw [hn, hprc, Nat.mul_comm p, ← Nat.mul_add] at hp
    have := Nat.le_of_mul_le_mul_left hp hr
    omega
  have hsrc : srcPos x.length c.N (nn - plc - prc) plc p = p - c.left / c.r := by
    unfold srcPos
    rw [if_neg (by rw [not_or]; omega), hld]
  have hpn : p < x.length / c.r := by
    rw [Nat.lt_iff_add_one_le, Nat.le_div_iff_mul_le hr]; omega
  have := h3 p hpn (by
    rw [hsrc]
    have : (p - c.left / c.r + 1) * c.r ≤ (p + 1) * c.r := Nat.mul_le_mul_right _ (by omega)
    omega)
  rw [hsrc] at this
  exact this

/-- **C148 (defect: short sequences).** When the end context has more frames than the sequence, the start of the masked part
becomes negative and counts from the end: frames inside the end context are let through. -/
theorem C148_short (n e : Nat) (h1 : n < e) (h2 : e < 2 * n) (p : Nat) : (embMask n 0 e)[p]? = some true ↔ p < 2 * n - e := by
  rw [(embMask_spec n 0 e).2, if_neg (by omega)]
  omega

/-- **C148 (rejection).** Contexts that are not multiples of the downsampling, or that add up to the length of a chunk,
raise for every network and every sequence. -/
theorem C148_reject (c : EmbCfg) (enc : List α → List β) (z : α) (zy : β) (x : List α)
    (h : ¬ (c.r ∣ c.left) ∨ ¬ (c.r ∣ c.right) ∨ ¬ (c.r ∣ c.beginC) ∨ ¬ (c.r ∣ c.endC) ∨ c.N = c.left + c.right) :
    predictFrames c enc z zy x = none := by
  unfold predictFrames
  rcases h with h | h | h | h | h
  · simp [guard, h]
  · simp [guard, h]
  · simp [guard, h]
  · simp [guard, h]
  · have : ¬ (c.left + c.right < c.N) := by omega
    simp [guard, this]

/-- contexts of 3 frames with downsampling 2 -/
example : predictFrames ⟨6, 3, 2, 0, 3, 0, 2⟩ (fun x : List Nat => x) 0 0 [1, 2] = none := C148_reject _ _ _ _ _ (by decide)

/-- the hypotheses are met: chunks of 6 frames, one output per 2 frames, each output is the sum of its frames and the next two; the last
output (masked) adds the frames 9 and 10 that are still in the buffer -/
example : ∃ (φ : (Nat → Nat) → Nat) (enc : List Nat → List Nat), Looks φ 2 2 ∧ EncodesBy enc φ 2 3 0 ∧
    predictFrames ⟨6, 3, 2, 0, 2, 0, 2⟩ enc 0 0 [1, 2, 3, 4, 5, 6, 7, 8, 9, 10, 11, 12] =
      some ([10, 18, 26, 34, 42, 42], [true, true, true, true, true, false]) := by
  refine ⟨fun w => w 0 + w 1 + w 2 + w 3, fun x => (List.range 3).map (encFrame (fun w => w 0 + w 1 + w 2 + w 3) 2 0 x), ?_, fun x => rfl, by decide +kernel⟩
  intro f g h
  simp [h 0, h 1, h 2, h 3]

/-- frame-wise encoder (the identity), left context 1 declared: from the second chunk on everything is one frame late -/
example : predictFrames ⟨4, 4, 1, 1, 0, 0, 0⟩ (fun x : List Nat => x) 0 0 [1, 2, 3, 4, 5, 6, 7] = some ([1, 2, 3, 4, 4, 5, 6], [true, true, true, true, true, true, true]) := by
  decide +kernel

end Hyp.Keras
