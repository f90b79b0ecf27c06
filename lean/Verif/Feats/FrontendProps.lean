import Verif.Feats.Frontend
import Verif.Feats.StftProps
import Mathlib.Tactic.NormNum
import Mathlib.Algebra.Order.BigOperators.Group.List

/-!
C88: streaming through the recursive filters. C89: edge padding. C90: energy voice activity detection.
-/

namespace Hyp.Frontend
open Hyp.Stft

/-! ### C88 -/

/-- **C88** (streaming): filtering two consecutive pieces, keeping the state, is filtering the whole signal. -/
theorem C88_filter_append (b0 b1 a1 : ℝ) (x y : List ℝ) (z : ℝ) :
    lfilter b0 b1 a1 (x ++ y) z =
      ((lfilter b0 b1 a1 x z).1 ++ (lfilter b0 b1 a1 y (lfilter b0 b1 a1 x z).2).1,
        (lfilter b0 b1 a1 y (lfilter b0 b1 a1 x z).2).2) := by
  induction x generalizing z with
  | nil => rfl
  | cons a x ih =>
    simp only [List.cons_append, lfilter]
    rw [ih]

theorem lfilter_length (b0 b1 a1 : ℝ) (x : List ℝ) (z : ℝ) : (lfilter b0 b1 a1 x z).1.length = x.length := by
  induction x generalizing z with
  | nil => rfl
  | cons a x ih => simp only [lfilter, List.length_cons, ih]

/-- **C88** (what the filters compute): the difference equation `y[t] = b0 x[t] + b1 x[t-1] - a1 y[t-1]`, started from
the stored state. -/
theorem C88_difference (b0 b1 a1 : ℝ) (x : List ℝ) (z : ℝ) :
    let y := (lfilter b0 b1 a1 x z).1
    y.length = x.length ∧
    (∀ (h : 0 < x.length), y.getD 0 0 = b0 * x.getD 0 0 + z) ∧
    (∀ t, t + 1 < x.length → y.getD (t + 1) 0 = b0 * x.getD (t + 1) 0 + b1 * x.getD t 0 - a1 * y.getD t 0) := by
  refine ⟨lfilter_length _ _ _ _ _, ?_, ?_⟩
  · intro h
    match x, h with
    | a :: x, _ => simp [lfilter]
  · intro t
    induction x generalizing z t with
    | nil => intro h; simp at h
    | cons a x ih =>
      intro h
      cases t with
      | zero =>
        match x, h with
        | b :: x, _ => simp [lfilter]; ring
      | succ t =>
        have := ih (b1 * a - a1 * (b0 * a + z)) t (by simpa using h)
        simpa [lfilter] using this

/-- **C88** (offset removal): from a reset filter a constant signal is attenuated by 0.999 per sample, so that the
offset vanishes. -/
theorem C88_dc_constant (c : ℝ) (n t : Nat) (ht : t < n) :
    (dcFilter (List.replicate n c) reset).1.getD t 0 = c * 0.999 ^ t := by
  obtain ⟨hl, h0, h1⟩ := C88_difference 1 (-1) (-0.999) (List.replicate n c) reset
  have hr : ∀ s < n, (List.replicate n c).getD s 0 = c := by
    intro s hs
    simp [List.getD_eq_getElem?_getD, hs]
  induction t with
  | zero =>
    rw [dcFilter, h0 (by simpa using ht), hr 0 ht, reset]
    norm_num
  | succ t ih =>
    rw [dcFilter, h1 t (by simpa using ht), hr _ ht, hr t (by omega)]
    have := ih (by omega)
    rw [dcFilter] at this
    rw [this]
    ring

/-- **C88** (preemphasis): sample `t` minus `c` times sample `t-1`. -/
theorem C88_preemph (c : ℝ) (x : List ℝ) (t : Nat) (ht : t < x.length) :
    (preemph c x reset).1.getD t 0 = x.getD t 0 - c * (if t = 0 then 0 else x.getD (t - 1) 0) := by
  obtain ⟨hl, h0, h1⟩ := C88_difference 1 (-c) 0 x reset
  cases t with
  | zero => rw [preemph, h0 ht, reset]; simp
  | succ t => rw [preemph, h1 t ht]; simp; ring

/-- The filter state after a sequence of waves. -/
theorem logE_state (c : VadCfg) (noise : Nat → List ℝ) (hd : ¬ c.dither > 0) (hs : c.snip = true) (hS : 0 < c.S)
    (x : List ℝ) (z : ℝ) :
    logE c noise z (.wave x) = (stLogE (dcFilter x z).1 c.L c.S, (dcFilter x z).2) := by
  have h : padEdges c.snip c.L c.S x = some x := by
    rw [padEdges, if_neg (by omega), if_pos hs]
  rw [logE, h]
  simp only [addDither, if_neg hd]

theorem uses_append (c : VadCfg) (noise : Nat → List ℝ) (a b : List VadEv) (z : ℝ) :
    uses c noise z (a ++ b) =
      ((uses c noise z a).1 ++ (uses c noise (uses c noise z a).2 b).1, (uses c noise (uses c noise z a).2 b).2) := by
  induction a generalizing z with
  | nil => rfl
  | cons e a ih => cases e <;> simp [uses, ih]

/-- **C88** (streaming VAD): without dither and with `snip_edges`, after any history of uses, a reset, and any number
of calls on waves `hist`, the log energies of the next piece `x` are those of the frames inside `x` of the filtered
whole signal `hist ++ x`: the state carried over makes the pieces one signal. -/
theorem C88_vad_stream (c : VadCfg) (noise : Nat → List ℝ) (hd : ¬ c.dither > 0) (hs : c.snip = true) (hS : 0 < c.S)
    (before : List VadEv) (z : ℝ) (hist : List (List ℝ)) (x : List ℝ) :
    (logE c noise (uses c noise z (before ++ .reset :: hist.map (fun p => .call (.wave p)))).2 (.wave x)).1 =
      stLogE (((dcFilter (hist.flatten ++ x) 0).1).drop hist.flatten.length) c.L c.S := by
  have hst : ∀ (hist : List (List ℝ)) (z : ℝ),
      (uses c noise z (hist.map (fun p => .call (.wave p)))).2 = (dcFilter hist.flatten z).2 := by
    intro hist
    induction hist with
    | nil => intro z; rfl
    | cons a hist ih =>
      intro z
      simp only [List.map_cons, uses, List.flatten_cons]
      rw [ih]
      have : (compute c noise z (.wave a)).2 = (dcFilter a z).2 := by
        rw [compute]
        simp only [logE_state c noise hd hs hS]
      rw [this, dcFilter, dcFilter, dcFilter, C88_filter_append]
  rw [uses_append]
  simp only [uses]
  rw [hst, logE_state c noise hd hs hS]
  simp only [dcFilter, reset]
  rw [C88_filter_append]
  have hl := lfilter_length 1 (-1) (-0.999) hist.flatten 0
  simp only
  rw [List.drop_append_of_le_length (by omega), ← hl, List.drop_length, List.nil_append]

/-- **C88** (reset): after a reset the object behaves as a new one, whatever was computed before. -/
theorem C88_reset (c : VadCfg) (noise : Nat → List ℝ) (before : List VadEv) (z : ℝ) (after : List VadEv) :
    uses c noise z (before ++ .reset :: after) =
      ((uses c noise z before).1 ++ (uses c noise reset after).1, (uses c noise reset after).2) := by
  rw [uses_append]
  rfl

/-- Without a reset the same wave gives a different answer the second time: a wave whose first call leaves the filter in
a state other than the initial one. -/
theorem C88_no_reset_differs :
    (logE ⟨1, 1, 0, true, 1, 0, 0⟩ (fun _ => []) 0 (.wave [1])).1 ≠
      (logE ⟨1, 1, 0, true, 1, 0, 0⟩ (fun _ => []) (logE ⟨1, 1, 0, true, 1, 0, 0⟩ (fun _ => []) 0 (.wave [1])).2
        (.wave [1])).1 := by
  have h1 : ∀ z : ℝ, logE ⟨1, 1, 0, true, 1, 0, 0⟩ (fun _ => []) z (.wave [1]) =
      (some [Real.log ((1 + z) ^ 2 + 1e-15)], -1 + 0.999 * (1 + z)) := by
    intro z
    rw [logE_state _ _ (by simp) rfl (by decide)]
    simp [dcFilter, lfilter, stLogE, frameMap, numFrames, frameLoop]
  rw [h1, h1]
  intro h
  simp only [Option.some.injEq, List.cons.injEq, and_true] at h
  have h2 := Real.log_injOn_pos (by norm_num : ((1 + 0 : ℝ) ^ 2 + 1e-15) ∈ Set.Ioi 0)
    (by norm_num : ((1 + (-1 + 0.999 * (1 + 0)) : ℝ) ^ 2 + 1e-15) ∈ Set.Ioi 0) h
  norm_num at h2

/-! ### C89 -/

theorem reflectIdx_inside {n t : Nat} (h : t < n) : reflectIdx n (t : Int) = t := by
  rw [reflectIdx]
  split_ifs with h1
  · omega
  · dsimp only
    have h2 : ((t : Int) % (2 * (n - 1) : Nat)).toNat = t ∨ n ≤ 1 := by
      by_cases h3 : t < 2 * (n - 1)
      · left
        rw [Int.emod_eq_of_lt (by omega) (by omega)]
        omega
      · right; omega
    rcases h2 with h2 | h2
    · rw [h2, if_pos h]
    · omega

/-- The number of frames with padded edges, and the two pads. -/
theorem padEdges_eq (L S : Nat) (x : List ℝ) (hS : 0 < S) :
    padEdges false L S x = padReflect x (((L : Int) - S) / 2)
      ((roundEven ((x.length : ℚ) / (S : ℚ)) - 1) * S + L - x.length - ((L : Int) - S) / 2) := by
  rw [padEdges, if_neg (by omega)]
  simp

theorem round_bounds (len S : Nat) (hS : 0 < S) :
    2 * (roundEven ((len : ℚ) / (S : ℚ)) * S) ≤ 2 * (len : Int) + S ∧
      2 * (len : Int) ≤ 2 * (roundEven ((len : ℚ) / (S : ℚ)) * S) + S := by
  have hS' : (0 : ℚ) < S := by exact_mod_cast hS
  obtain ⟨h1, h2⟩ := roundEven_bounds ((len : ℚ) / (S : ℚ))
  set r := roundEven ((len : ℚ) / (S : ℚ))
  have e : (len : ℚ) / S * S = len := by field_simp
  constructor
  · have := mul_le_mul_of_nonneg_right h1 hS'.le
    rw [e] at this
    have h3 : 2 * ((r : ℚ) * S) ≤ 2 * len + S := by nlinarith
    exact_mod_cast h3
  · have := mul_le_mul_of_nonneg_right h2 hS'.le
    rw [e] at this
    have h3 : 2 * (len : ℚ) ≤ 2 * ((r : ℚ) * S) + S := by nlinarith
    exact_mod_cast h3

/-- **C89**: with `snip_edges=False`, a frame at least two shifts long and a non-empty signal, the padding succeeds,
the signal sits unchanged inside the padded one, and every short-time function then returns `round(len/shift)` frames:
the number depends on the shift only. -/
theorem C89_frames {α : Type} (f : List ℝ → α) (L S : Nat) (x : List ℝ) (hS : 0 < S) (hL : 2 * S ≤ L)
    (hx : 0 < x.length) :
    ∃ p r, padEdges false L S x = some p ∧ frameMap (fun fr => some (f fr)) p L S = some r ∧
      (r.length : Int) = roundEven ((x.length : ℚ) / (S : ℚ)) ∧
      ∀ t < x.length, p.getD ((L - S) / 2 + t) 0 = x.getD t 0 := by
  obtain ⟨hb1, hb2⟩ := round_bounds x.length S hS
  set nf := roundEven ((x.length : ℚ) / (S : ℚ)) with hnf
  have hnf0 : 0 ≤ nf := by
    apply le_roundEven
    push_cast
    positivity
  rw [padEdges_eq L S x hS, ← hnf]
  have hd1 : ((L : Int) - S) / 2 = ((L - S) / 2 : Nat) := by
    rw [Int.natCast_div, Nat.cast_sub (by omega)]
    rfl
  have e : (nf - 1) * (S : Int) = nf * S - S := by ring
  rw [padReflect, if_neg (by rw [e]; omega), if_neg (by omega)]
  have hplen : ((((L : Int) - S) / 2).toNat + x.length +
      ((nf - 1) * S + L - x.length - ((L : Int) - S) / 2).toNat : Int) = (nf - 1) * S + L := by
    rw [e]
    omega
  set p := ((List.range ((((L : Int) - S) / 2).toNat + x.length +
      ((nf - 1) * S + L - x.length - ((L : Int) - S) / 2).toNat)).map
      (fun t : Nat => x.getD (reflectIdx x.length ((t : Int) - ((L : Int) - S) / 2)) 0)) with hp
  have hpl : (p.length : Int) = (nf - 1) * S + L := by
    rw [← hplen, hp]
    simp
  have hin : ∀ t < x.length, p.getD ((L - S) / 2 + t) 0 = x.getD t 0 := by
    intro t ht
    have h1 : (L - S) / 2 + t < p.length := by omega
    have h2 : (L - S) / 2 + t < (((L : Int) - S) / 2).toNat + x.length +
      ((nf - 1) * S + L - x.length - ((L : Int) - S) / 2).toNat := by omega
    rw [List.getD_eq_getElem?_getD (l := p), hp, List.getElem?_map, List.getElem?_range h2]
    simp only [Option.map_some, Option.getD_some]
    congr 1
    rw [hd1, show (((L - S) / 2 + t : Nat) : Int) - ((L - S) / 2 : Nat) = (t : Int) by push_cast; ring]
    exact reflectIdx_inside ht
  by_cases h0 : nf = 0
  · have hlt : p.length < L := by rw [h0] at hpl; omega
    refine ⟨p, [], rfl, ?_, by simp [h0], hin⟩
    rw [frameMap_short _ p hS hlt (by rw [h0] at hpl; omega)]
  · have hle : L ≤ p.length := by
      have : 0 ≤ (nf - 1) * (S : Int) := mul_nonneg (by omega) (by omega)
      omega
    refine ⟨p, (List.range ((p.length - L) / S + 1)).map (fun i : Nat => f ((p.drop (i * S)).take L)), rfl, ?_, ?_, hin⟩
    · rw [frameMap_of_le _ p hS hle, mapM_eq_some_iff, List.map_map]
      rfl
    · rw [List.length_map, List.length_range]
      have h1 : ((p.length - L : Nat) : Int) = (nf - 1) * S := by omega
      push_cast
      rw [h1, Int.mul_ediv_cancel _ (by omega)]
      ring

/-- **C89** (short frames, negation): a frame as long as the shift (so less than two shifts) makes the padding raise
for some signals: 5 samples, shift and frame of 4. -/
theorem C89_short_frame_raises : padEdges false 4 4 [1, 2, 3, 4, 5] = none := by
  rw [padEdges_eq _ _ _ (by decide)]
  have h : roundEven (((5 : Nat) : ℚ) / ((4 : Nat) : ℚ)) = 1 := by
    have hf : ⌊(5 : ℚ) / 4⌋ = 1 := by rw [Int.floor_eq_iff]; norm_num
    simp only [roundEven]
    push_cast
    rw [hf]
    norm_num
  simp only [List.length_cons, List.length_nil] at h ⊢
  rw [padReflect, if_pos]
  right
  norm_num at h ⊢
  rw [h]
  norm_num

/-- **C89** (`snip_edges=True`): the signal is not changed. -/
theorem C89_snip (L S : Nat) (x : List ℝ) (hS : 0 < S) : padEdges true L S x = some x := by
  rw [padEdges, if_neg (by omega)]
  simp

/-! ### C90 -/

/-- **C90**: without context, `compute` returns one decision per log energy, and frame `i` is speech exactly if its log
energy is above `threshold + scale * (mean log energy)`. -/
theorem C90_decision (c : VadCfg) (noise : Nat → List ℝ) (z : ℝ) (x : VadIn) (hc : c.context = 0) (e : List ℝ)
    (he : (logE c noise z x).1 = some e) :
    ∃ v, (compute c noise z x).1 = some v ∧ v.length = e.length ∧
      ∀ (i : Nat) (h : i < e.length), v.getD i false = true ↔ e[i] > c.thr + c.scale * (e.sum / (e.length : ℝ)) := by
  refine ⟨decide c e, ?_, by simp [decide], fun i h => ?_⟩
  · simp [compute, he, hc]
  · simp only [decide, mean, List.getD_eq_getElem?_getD, List.getElem?_map, List.getElem?_eq_getElem h,
      Option.map_some, Option.getD_some]
    split_ifs with h' <;> simp [h']

/-- **C90** (wave input): for a wave with at least one frame the energies exist, and there is one decision per frame. -/
theorem C90_wave (c : VadCfg) (noise : Nat → List ℝ) (z : ℝ) (x : List ℝ) (hc : c.context = 0) (hs : c.snip = true)
    (hS : 0 < c.S) (hL : c.L ≤ x.length) (hn : ∀ n, (noise n).length = n) :
    ∃ v, (compute c noise z (.wave x)).1 = some v ∧ v.length = (x.length - c.L) / c.S + 1 := by
  have hp : padEdges c.snip c.L c.S x = some x := by rw [hs]; exact C89_snip _ _ _ hS
  have hdl : (addDither noise c.dither x).length = x.length := by
    rw [addDither]
    split_ifs
    · simp [hn]
    · rfl
  have hfl : (dcFilter (addDither noise c.dither x) z).1.length = x.length := by
    rw [dcFilter, lfilter_length, hdl]
  have he : (logE c noise z (.wave x)).1 = stLogE (dcFilter (addDither noise c.dither x) z).1 c.L c.S := by
    rw [logE, hp]
  rw [C86_logE _ _ _ hS (by omega)] at he
  obtain ⟨v, h1, h2, -⟩ := C90_decision c noise z (.wave x) hc _ he
  refine ⟨v, h1, ?_⟩
  rw [h2, hfl]
  simp

/-- **C90** (a context never works): with `vad_frames_context > 0` every call raises. -/
theorem C90_context_raises (c : VadCfg) (noise : Nat → List ℝ) (z : ℝ) (x : VadIn) (hc : 0 < c.context) :
    (compute c noise z x).1 = none := by
  rw [compute]
  cases (logE c noise z x).1 with
  | none => rfl
  | some e => simp [Nat.pos_iff_ne_zero.1 hc]

/-- **C90** (threshold): raising the constant threshold never turns a silence frame into speech. -/
theorem C90_monotone (c c' : VadCfg) (noise : Nat → List ℝ) (z : ℝ) (x : VadIn) (v v' : List Bool)
    (hcc : c' = { c with thr := c'.thr }) (ht : c.thr ≤ c'.thr)
    (hv : (compute c noise z x).1 = some v) (hv' : (compute c' noise z x).1 = some v') :
    v.length = v'.length ∧ ∀ i, v'.getD i false = true → v.getD i false = true := by
  have hE : logE c' noise z x = logE c noise z x := by
    rw [hcc]
    cases x <;> rfl
  have hctx : c'.context = c.context := by rw [hcc]
  have hsc : c'.scale = c.scale := by rw [hcc]
  simp only [compute] at hv hv'
  rw [hE] at hv'
  rcases Option.eq_none_or_eq_some (logE c noise z x).1 with h | ⟨e, h⟩
  · rw [h] at hv; simp at hv
  · rw [h] at hv hv'
    simp only [Option.bind_some, hctx] at hv hv'
    split_ifs at hv hv' with hc
    injection hv with hv
    injection hv' with hv'
    subst hv hv'
    refine ⟨by simp [decide], fun i => ?_⟩
    simp only [decide, List.getD_eq_getElem?_getD, List.getElem?_map, hsc]
    rcases e[i]? with _ | a
    · simp
    · simp only [Option.map_some, Option.getD_some]
      intro h1
      rw [if_pos]
      by_contra h2
      rw [if_neg (by intro h3; exact h2 (by linarith))] at h1
      simp at h1

/-- **C90** (gain invariance): with a mean scale of 1, adding a constant to all the log energies of a feature matrix
(changing the gain of the signal) does not change any decision. -/
theorem C90_gain (c : VadCfg) (noise : Nat → List ℝ) (z g : ℝ) (rows : List (List ℝ)) (hs : c.scale = 1) :
    (compute c noise z (.feats (rows.map (fun r => r.modify 0 (· + g))))).1 = (compute c noise z (.feats rows)).1 := by
  have hcol : column0 (rows.map (fun r => r.modify 0 (· + g))) = (column0 rows).map (fun e => e.map (· + g)) := by
    induction rows with
    | nil => rfl
    | cons r rows ih =>
      rw [column0] at ih ⊢
      rw [List.map_cons, List.mapM_cons, ih, column0, column0, List.mapM_cons]
      cases r with
      | nil => rfl
      | cons a r =>
        have h1 : ((a :: r).modify 0 (· + g))[0]? = some (a + g) := by simp
        have h2 : (a :: r)[0]? = some a := by simp
        rw [h1, h2]
        cases h : rows.mapM (fun r => r[0]?) <;> simp [column0, h]
  simp only [compute, logE, hcol]
  cases column0 rows with
  | none => rfl
  | some e =>
    simp only [Option.map_some, Option.bind_some]
    by_cases hc : c.context = 0
    · rw [if_pos hc, if_pos hc]
      congr 1
      simp only [decide, List.map_map, hs]
      refine List.map_congr_left (fun a ha => ?_)
      have hne : e.length ≠ 0 := by
        have := List.length_pos_of_mem ha
        omega
      have hm : mean (e.map (· + g)) = mean e + g := by
        have hsum : ∀ l : List ℝ, (l.map (· + g)).sum = l.sum + (l.length : ℝ) * g := by
          intro l
          induction l with
          | nil => simp
          | cons b l ih => simp [ih]; ring
        have hne' : ((e.length : Nat) : ℝ) ≠ 0 := by exact_mod_cast hne
        rw [mean, mean, hsum, List.length_map]
        field_simp
      simp only [Function.comp, hm]
      have : (a + g > c.thr + 1 * (mean e + g)) ↔ (a > c.thr + 1 * mean e) := by constructor <;> intro h <;> linarith
      by_cases h : a > c.thr + 1 * mean e
      · rw [if_pos h, if_pos (this.2 h)]
      · rw [if_neg h, if_neg (fun h' => h (this.1 h'))]
    · rw [if_neg hc, if_neg hc]

/-- Non-vacuity: a wave of ten samples, frames of 4 with shift 2. -/
example : ∃ v, (compute ⟨4, 2, 0, true, 1, 0, 0⟩ (fun n => List.replicate n 0) reset
    (.wave [1, 2, 3, 4, 5, 6, 7, 8, 9, 10])).1 = some v ∧ v.length = 4 := by
  obtain ⟨v, h1, h2⟩ := C90_wave ⟨4, 2, 0, true, 1, 0, 0⟩ (fun n => List.replicate n 0) reset
    [1, 2, 3, 4, 5, 6, 7, 8, 9, 10] rfl rfl (by decide) (by simp) (by simp)
  exact ⟨v, h1, by simpa using h2⟩

end Hyp.Frontend
