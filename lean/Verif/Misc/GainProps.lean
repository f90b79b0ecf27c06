import Verif.Misc.Gain

/-!
C157: gains of features and the activity detector.
-/

namespace Hyp.Misc

theorem logb_e : (20 : ℝ) * Real.logb 10 (Real.exp 1) = 20 / Real.log 10 ∧ (10 : ℝ) * Real.logb 10 (Real.exp 1) = 10 / Real.log 10 := by
  unfold Real.logb
  rw [Real.log_exp]
  constructor <;> ring

theorem log10_pos : 0 < Real.log 10 := Real.log_pos (by norm_num)

/-- **C157**: the feature types, and no others -/
theorem C157_types (x : List ℝ) (ty : String) (a : ℝ) :
    (applyGain x ty a).isSome ↔ ty ∈ ["fft", "logfft", "fb", "fb2", "logfb", "logfb2"] := by
  unfold applyGain
  simp only [List.mem_cons, List.not_mem_nil, or_false]
  split_ifs <;> simp_all

/-- **C157**: `a` decibels multiply an amplitude by 10^(a/20) and a power by 10^(a/10); as many elements as before -/
theorem C157_amplitude (x : List ℝ) (a : ℝ) :
    (∀ ty ∈ ["fft", "fb"], applyGain x ty a = some (x.map (fun v => v * (10 : ℝ) ^ (a / 20)))) ∧
    applyGain x "fb2" a = some (x.map (fun v => v * (10 : ℝ) ^ (a / 10))) := by
  refine ⟨fun ty h => ?_, by simp [applyGain, gainX2]⟩
  simp only [List.mem_cons, List.not_mem_nil, or_false] at h
  rcases h with rfl | rfl <;> simp [applyGain, gainX]

/-- **C157**: the gain of a logarithm is the logarithm of the gain -/
theorem C157_log (x : List ℝ) (hx : ∀ v ∈ x, 0 < v) (a : ℝ) :
    (∀ p ∈ [("fft", "logfft"), ("fb", "logfb"), ("fb2", "logfb2")],
      applyGain (x.map Real.log) p.2 a = (applyGain x p.1 a).map (fun y => y.map Real.log)) := by
  have h1 : gainLogx (x.map Real.log) a = (gainX x a).map Real.log := by
    unfold gainLogx gainX
    rw [List.map_map, List.map_map]
    refine List.map_congr_left fun v hv => ?_
    simp only [Function.comp]
    rw [Real.log_mul (hx v hv).ne' (Real.rpow_pos_of_pos (by norm_num) _).ne', Real.log_rpow (by norm_num), logb_e.1]
    have := log10_pos.ne'
    field_simp
  have h2 : gainLogx2 (x.map Real.log) a = (gainX2 x a).map Real.log := by
    unfold gainLogx2 gainX2
    rw [List.map_map, List.map_map]
    refine List.map_congr_left fun v hv => ?_
    simp only [Function.comp]
    rw [Real.log_mul (hx v hv).ne' (Real.rpow_pos_of_pos (by norm_num) _).ne', Real.log_rpow (by norm_num), logb_e.2]
    have := log10_pos.ne'
    field_simp
  intro p hp
  simp only [List.mem_cons, List.not_mem_nil, or_false] at hp
  rcases hp with rfl | rfl | rfl <;> simp [applyGain, h1, h2]

/-- **C157**: the power of the amplified signal is the amplified power -/
theorem C157_power (x : List ℝ) (a : ℝ) : applyGain (x.map (fun v => v ^ 2)) "fb2" a = (applyGain x "fb" a).map (fun y => y.map (fun v => v ^ 2)) := by
  have h : (10 : ℝ) ^ (a / 10) = ((10 : ℝ) ^ (a / 20)) ^ 2 := by
    rw [← Real.rpow_natCast, ← Real.rpow_mul (by norm_num)]
    congr 1
    push_cast; ring
  simp only [(C157_amplitude _ a).2, (C157_amplitude x a).1 "fb" (by simp), Option.map_some, List.map_map, h]
  congr 2
  funext v
  simp only [Function.comp]
  ring

/-- **C157**: gains add up, no gain changes nothing, and the opposite gain undoes a gain -/
theorem C157_add (x y : List ℝ) (ty : String) (a b : ℝ) (h : applyGain x ty a = some y) :
    applyGain y ty b = applyGain x ty (a + b) ∧ applyGain x ty 0 = some x ∧ applyGain y ty (-a) = some x := by
  have hX : ∀ (k : ℝ) (l : List ℝ) (c d : ℝ), (l.map (fun v => v * (10 : ℝ) ^ (c / k))).map (fun v => v * (10 : ℝ) ^ (d / k)) =
      l.map (fun v => v * (10 : ℝ) ^ ((c + d) / k)) := by
    intro k l c d
    rw [List.map_map]
    congr 1
    funext v
    simp only [Function.comp]
    rw [mul_assoc, ← Real.rpow_add (by norm_num), ← add_div]
  have hL : ∀ (k : ℝ) (l : List ℝ) (c d : ℝ), (l.map (fun v => v + c / k)).map (fun v => v + d / k) = l.map (fun v => v + (c + d) / k) := by
    intro k l c d
    rw [List.map_map]
    congr 1
    funext v
    simp only [Function.comp]
    rw [add_assoc, ← add_div]
  have key : ∀ c d, ((applyGain x ty c).bind fun y => applyGain y ty d) = applyGain x ty (c + d) := by
    intro c d
    unfold applyGain gainX gainX2 gainLogx gainLogx2
    split_ifs <;> simp only [Option.bind_some, Option.bind_none, hX, hL]
  have zero : (applyGain x ty a).isSome → applyGain x ty 0 = some x := by
    unfold applyGain gainX gainX2 gainLogx gainLogx2
    split_ifs <;> simp
  have k1 := key a b
  have k2 := key a (-a)
  rw [h, Option.bind_some] at k1 k2
  have z := zero (by rw [h]; rfl)
  exact ⟨k1, z, by rw [k2, add_neg_cancel, z]⟩

/-- **C157**: a frame is active exactly when it is less than 35 below the loudest one; the loudest one is active; no frames raise -/
theorem C157_vad (p : List ℝ) : (energyVad p = none ↔ p = []) ∧ ∀ r, energyVad p = some r →
    r.length = p.length ∧ (∀ (i : Nat) (v : ℝ), p[i]? = some v → (r[i]? = some true ↔ ∀ u ∈ p, u - v < 35)) ∧ true ∈ r := by
  unfold energyVad
  constructor
  · rw [Option.map_eq_none_iff, List.max?_eq_none_iff]
  · intro r hr
    rw [Option.map_eq_some_iff] at hr
    obtain ⟨m, hm, rfl⟩ := hr
    rw [List.max?_eq_some_iff] at hm
    refine ⟨by simp, fun i v hv => ?_, ?_⟩
    · rw [List.getElem?_map, hv]
      simp only [Option.map_some, Option.some.injEq, decide_eq_true_eq]
      constructor
      · intro h u hu; have := hm.2 u hu; linarith
      · intro h; have := h m hm.1; linarith
    · rw [List.mem_map]
      exact ⟨m, hm.1, by simp⟩

/-- **C157**: a common gain does not change the decisions -/
theorem C157_vad_gain (p : List ℝ) (g : ℝ) : energyVad (p.map (· + g)) = energyVad p := by
  cases hp : energyVad p with
  | none =>
    rw [(C157_vad p).1] at hp; subst hp; rfl
  | some r =>
    cases hq : energyVad (p.map (· + g)) with
    | none =>
      rw [(C157_vad _).1, List.map_eq_nil_iff] at hq; subst hq; simp [energyVad] at hp
    | some s =>
      obtain ⟨h1, h2, -⟩ := (C157_vad p).2 r hp
      obtain ⟨h3, h4, -⟩ := (C157_vad _).2 s hq
      rw [List.length_map] at h3
      congr 1
      refine List.ext_getElem (by omega) fun i hi hj => ?_
      have ha := h2 i (p[i]'(by omega)) (List.getElem?_eq_getElem _)
      have hb := h4 i (p[i]'(by omega) + g) (by rw [List.getElem?_map, List.getElem?_eq_getElem (by omega)]; rfl)
      rw [List.getElem?_eq_getElem hj, Option.some.injEq] at ha
      rw [List.getElem?_eq_getElem hi, Option.some.injEq] at hb
      have : (s[i] = true) ↔ (r[i] = true) := by
        rw [ha, hb]
        simp
      exact Bool.eq_iff_iff.2 this

/-- 20 dB: ten times the amplitude, a hundred times the power -/
example : applyGain [1, 2] "fft" 20 = some [10, 20] ∧ applyGain [1, 2] "fb2" 20 = some [100, 200] ∧ applyGain [1, 2] "mfcc" 20 = none := by
  refine ⟨?_, ?_, by simp [applyGain]⟩
  · rw [(C157_amplitude _ _).1 "fft" (by simp)]; norm_num
  · rw [(C157_amplitude _ _).2]; norm_num

example : energyVad [0, -50, 10] = some [true, false, true] := by
  unfold energyVad
  simp [List.max?]
  norm_num

end Hyp.Misc
