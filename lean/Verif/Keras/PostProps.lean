import Verif.Keras.Post
import Verif.Classifiers.QScoreProps
import Verif.NpLemmas
import Mathlib.Analysis.Complex.ExponentialBounds

/-!
C145: Gaussian posteriors in Keras: formats, product of the posteriors of the frames of a sequence, scoring against classes.
-/

namespace Hyp.Keras
open Real ProbabilityTheory
open scoped NNReal BigOperators

/-- Specification: `p` is the first parameter, in the given format, of the Gaussian with mean `m` and variance `v`. -/
inductive First : String → ℝ → ℝ → ℝ → Prop
  | mean (m v : ℝ) : First "mean" m m v
  | nat (m v : ℝ) : First "nat" (m / v) m v

/-- Specification: `p` is the second parameter, in the given format, of a Gaussian with variance `v`; in the last two formats
the variance is between `b` and one, by a logistic function. -/
inductive Second (b : ℝ) : String → ℝ → ℝ → Prop
  | logvar (v : ℝ) : Second b "logvar" (log v) v
  | var (v : ℝ) : Second b "var" v v
  | logprec (v : ℝ) : Second b "logprec" (log (1 / v)) v
  | prec (v : ℝ) : Second b "prec" (1 / v) v
  | prec1 (v : ℝ) : Second b "prec-1" (1 / v - 1) v
  | logprec1 (y : ℝ) : Second b "logprec-1" y (b + (1 - b) / (1 + exp y))
  | logitvar (y : ℝ) : Second b "logitvar" y (b + (1 - b) / (1 + exp (-y)))

theorem kclip_id {x lo hi : ℝ} (h1 : lo ≤ x) (h2 : x ≤ hi) : kclip x lo hi = x := by
  unfold kclip; rw [max_eq_left h1, min_eq_left h2]

theorem clip_inv {b v : ℝ} (hb : 0 < b) (hb1 : b ≤ 1) (hv : 0 < v) : kclip (1 / v) 1 (1 / b) = 1 / max b (min v 1) := by
  have h1b : 1 ≤ 1 / b := by rw [le_div_iff₀ hb]; linarith
  unfold kclip
  rcases le_total v 1 with h | h
  · have hv1 : 1 ≤ 1 / v := by rw [le_div_iff₀ hv]; linarith
    rw [max_eq_left hv1, min_eq_left h]
    rcases le_total b v with h2 | h2
    · rw [max_eq_right h2, min_eq_left (one_div_le_one_div_of_le hb h2)]
    · rw [max_eq_left h2, min_eq_right (one_div_le_one_div_of_le hv h2)]
  · have hv1 : 1 / v ≤ 1 := by rw [div_le_iff₀ hv]; linarith
    rw [max_eq_right hv1, min_eq_right h, max_eq_right hb1, min_eq_left h1b, one_div_one]

theorem logistic_bounds {b e : ℝ} (hb1 : b ≤ 1) (he : 0 < e) : b ≤ b + (1 - b) / (1 + e) ∧ b + (1 - b) / (1 + e) ≤ 1 := by
  have h : 0 ≤ (1 - b) / (1 + e) := div_nonneg (by linarith) (by linarith)
  have h2 : (1 - b) / (1 + e) ≤ 1 - b := by
    rw [div_le_iff₀ (by linarith)]
    nlinarith
  constructor <;> linarith

theorem inPrec_spec {b : ℝ} (hb : 0 < b) (hb1 : b ≤ 1) {fmt : String} {p v : ℝ} (h : Second b fmt p v) (hv : 0 < v)
    (hs : fmt = "logprec-1" ∨ fmt = "logitvar" → |p| ≤ 7) : inPrec b fmt p = some (1 / max b (min v 1)) := by
  rw [← clip_inv hb hb1 hv]
  cases h with
  | logvar => simp [inPrec, exp_neg, exp_log hv]
  | var => simp [inPrec]
  | logprec => simp [inPrec, exp_neg, exp_log hv]
  | prec => simp [inPrec]
  | prec1 => simp [inPrec]
  | logprec1 =>
    have h7 := abs_le.1 (hs (Or.inl rfl))
    obtain ⟨h1, h2⟩ := logistic_bounds hb1 (exp_pos p)
    rw [clip_inv hb hb1 hv, min_eq_left h2, max_eq_right h1]
    have he := exp_pos p
    have hd : 0 < 1 + b * exp p := by positivity
    simp only [inPrec, logprec1ToPrec]
    rw [if_neg (by decide), if_pos trivial, kclip_id h7.1 h7.2]
    congr 1
    have : b + (1 - b) / (1 + exp p) = (1 + b * exp p) / (1 + exp p) := by field_simp; ring
    rw [this, one_div_div]
  | logitvar =>
    have h7 := abs_le.1 (hs (Or.inr rfl))
    obtain ⟨h1, h2⟩ := logistic_bounds hb1 (exp_pos (-p))
    rw [clip_inv hb hb1 hv, min_eq_left h2, max_eq_right h1]
    have he := exp_pos (-p)
    have hd : 0 < 1 + b * exp (-p) := by positivity
    simp only [inPrec, logitvarToPrec]
    rw [if_pos trivial, kclip_id h7.1 h7.2]
    congr 1
    have : b + (1 - b) / (1 + exp (-p)) = (1 + b * exp (-p)) / (1 + exp (-p)) := by field_simp; ring
    rw [this, one_div_div]

theorem outSecond_spec (b : ℝ) {fmt : String} (hf : fmt ∈ ["logvar", "var", "logprec", "prec"]) {v : ℝ} :
    ∃ r, outSecond fmt (1 / v) = some r ∧ Second b fmt r v := by
  simp only [List.mem_cons, List.not_mem_nil, or_false] at hf
  rcases hf with rfl | rfl | rfl | rfl
  · exact ⟨log v, by simp [outSecond], .logvar v⟩
  · exact ⟨v, by simp [outSecond], .var v⟩
  · exact ⟨log (1 / v), by simp [outSecond], .logprec v⟩
  · exact ⟨1 / v, by simp [outSecond], .prec v⟩

/-- **C145 (formats, any variance).** The converted parameters describe, in the new format, a Gaussian whose variance is the
given one limited to `[min_var, 1]`; the mean (input format mean) or the natural parameter (input format nat) is kept. -/
theorem C145_convert_limited {b : ℝ} (hb : 0 < b) (hb1 : b ≤ 1) {fin fout : String × String} {p1 p2 m v : ℝ} (h1 : First fin.1 p1 m v)
    (h2 : Second b fin.2 p2 v) (hv : 0 < v) (hs : fin.2 = "logprec-1" ∨ fin.2 = "logitvar" → |p2| ≤ 7)
    (ho1 : fout.1 = "mean" ∨ fout.1 = "nat") (ho2 : fout.2 ∈ ["logvar", "var", "logprec", "prec"]) :
    ∃ r1 r2 m', convertFmt b fin fout p1 p2 = some (r1, r2) ∧ First fout.1 r1 m' (max b (min v 1)) ∧ Second b fout.2 r2 (max b (min v 1)) ∧
      (fin.1 = "mean" → m' = m) ∧ (fin.1 = "nat" → m' / max b (min v 1) = m / v) := by
  have hp := inPrec_spec hb hb1 h2 hv hs
  have hV : 0 < max b (min v 1) := lt_of_lt_of_le hb (le_max_left _ _)
  generalize max b (min v 1) = V at *
  obtain ⟨r2, hr2, hS⟩ := outSecond_spec b ho2 (v := V)
  obtain ⟨f1, f2⟩ := fin
  obtain ⟨o1, o2⟩ := fout
  simp only at *
  unfold convertFmt
  simp only [hp, Option.bind_eq_bind, Option.bind_some, hr2]
  cases h1 with
  | mean =>
    rcases ho1 with rfl | rfl
    · exact ⟨p1, r2, p1, by simp, .mean _ _, hS, fun _ => rfl, by simp⟩
    · refine ⟨p1 / V, r2, p1, ?_, .nat _ _, hS, fun _ => rfl, by simp⟩
      simp [div_eq_mul_inv]
  | nat =>
    rcases ho1 with rfl | rfl
    · refine ⟨m / v * V, r2, m / v * V, ?_, .mean _ _, hS, by simp, fun _ => by field_simp⟩
      simp [div_eq_mul_inv]
    · refine ⟨m / v, r2, m / v * V, by simp, ?_, hS, by simp, fun _ => by field_simp⟩
      have := First.nat (m / v * V) V
      rwa [mul_div_cancel_right₀ _ hV.ne'] at this

/-- **C145 (formats).** For variances between `min_var` and one the conversion between any two formats describes the same
Gaussian. -/
theorem C145_convert {b : ℝ} (hb : 0 < b) (hb1 : b ≤ 1) {fin fout : String × String} {p1 p2 m v : ℝ} (h1 : First fin.1 p1 m v)
    (h2 : Second b fin.2 p2 v) (hv : b ≤ v) (hv1 : v ≤ 1) (hs : fin.2 = "logprec-1" ∨ fin.2 = "logitvar" → |p2| ≤ 7)
    (ho1 : fout.1 = "mean" ∨ fout.1 = "nat") (ho2 : fout.2 ∈ ["logvar", "var", "logprec", "prec"]) :
    ∃ r1 r2, convertFmt b fin fout p1 p2 = some (r1, r2) ∧ First fout.1 r1 m v ∧ Second b fout.2 r2 v := by
  have hv0 : 0 < v := by linarith
  obtain ⟨r1, r2, m', h, hF, hS, ha, hb'⟩ := C145_convert_limited hb hb1 h1 h2 hv0 hs ho1 ho2
  rw [min_eq_left hv1, max_eq_right hv] at hF hS hb'
  have : m' = m := by
    obtain ⟨f1, f2⟩ := fin
    simp only at h1 ha hb'
    cases h1 with
    | mean => exact ha rfl
    | nat =>
      have := hb' rfl
      field_simp at this
      exact this
  subst this
  exact ⟨r1, r2, h, hF, hS⟩

/-- **C145 (unknown formats).** Both layers raise exactly for the words they do not know. -/
theorem C145_unknown (b pen : ℝ) (fin fout : String × String) (p1 p2 : ℝ) (f : List (ℝ × ℝ × ℝ)) :
    (convertFmt b fin fout p1 p2 = none ↔ fin.2 ∉ ["logitvar", "logprec-1", "logvar", "logprec", "var", "prec", "prec-1"] ∨
      fout.2 ∉ ["logvar", "var", "logprec", "prec"]) ∧
    (postPool b pen fin fout f = none ↔ fin.2 ∉ ["logitvar", "logprec-1", "logvar", "logprec", "var", "prec", "prec-1"] ∨
      fout.2 ∉ ["logvar", "var", "logprec", "prec"]) := by
  have hi : ∀ p, inPrec b fin.2 p = none ↔ fin.2 ∉ ["logitvar", "logprec-1", "logvar", "logprec", "var", "prec", "prec-1"] := by
    intro p
    unfold inPrec
    simp only [List.mem_cons, List.not_mem_nil, or_false]
    split_ifs <;> simp_all
  have ho : ∀ p, outSecond fout.2 p = none ↔ fout.2 ∉ ["logvar", "var", "logprec", "prec"] := by
    intro p
    unfold outSecond
    simp only [List.mem_cons, List.not_mem_nil, or_false]
    split_ifs <;> simp_all
  constructor
  · unfold convertFmt
    rw [← hi p2]
    cases h : inPrec b fin.2 p2 with
    | none => simp
    | some q =>
      simp only [Option.bind_eq_bind, Option.bind_some]
      rw [← ho q]
      cases outSecond fout.2 q <;> simp
  · unfold postPool
    rw [← hi 1]
    cases h : inPrec b fin.2 1 with
    | none => simp
    | some q =>
      have hne : ∀ p, ∃ r, inPrec b fin.2 p = some r := fun p => by
        rw [← Option.ne_none_iff_exists', Ne, hi p, ← hi 1, h]; simp
      choose g hg using hne
      have : f.mapM (fun x : ℝ × ℝ × ℝ => (inPrec b fin.2 x.2.1).map (fun prec => (if fin.1 = "mean" then x.1 * prec else x.1, prec, x.2.2))) =
          some (f.map (fun x => (if fin.1 = "mean" then x.1 * g x.2.1 else x.1, g x.2.1, x.2.2))) := by
        apply mapM_eq_some_map
        intro x _
        simp [hg]
      simp only [Option.bind_eq_bind, Option.bind_some, this]
      generalize kclip _ _ _ = K
      rw [← ho K]
      cases outSecond fout.2 K <;> simp

/-- a frame with the Gaussian it describes: parameters, weight, mean, variance -/
structure PFrame where
  p1 : ℝ
  p2 : ℝ
  w : ℝ
  m : ℝ
  v : ℝ

/-- the parameters describe the Gaussian, whose variance is between `b` and one -/
structure PFrame.Ok (b : ℝ) (fin : String × String) (x : PFrame) : Prop where
  first : First fin.1 x.p1 x.m x.v
  second : Second b fin.2 x.p2 x.v
  low : b ≤ x.v
  high : x.v ≤ 1
  sat : fin.2 = "logprec-1" ∨ fin.2 = "logitvar" → |x.p2| ≤ 7

theorem postPool_eq {b : ℝ} (hb : 0 < b) (hb1 : b ≤ 1) (pen : ℝ) (fin fout : String × String) (l : List PFrame) (hl : ∀ x ∈ l, x.Ok b fin)
    (hfin : fin.2 ∈ ["logitvar", "logprec-1", "logvar", "logprec", "var", "prec", "prec-1"]) :
    postPool b pen fin fout (l.map (fun x => (x.p1, x.p2, x.w))) =
      (outSecond fout.2 (kclip (1 + pen * (l.map (fun x => x.w * (1 / x.v - 1))).sum) 1 100000)).map (fun r2 =>
        (if fout.1 = "mean" then pen * (l.map (fun x => x.w * (x.m / x.v))).sum / kclip (1 + pen * (l.map (fun x => x.w * (1 / x.v - 1))).sum) 1 100000
          else pen * (l.map (fun x => x.w * (x.m / x.v))).sum, r2)) := by
  have h1 : ∃ r, inPrec b fin.2 1 = some r := by
    rw [← Option.ne_none_iff_exists']
    intro h
    have := ((C145_unknown b pen fin ("mean", "var") 1 1 []).1.1 (by unfold convertFmt; rw [h]; rfl))
    simp [hfin] at this
  obtain ⟨r, hr⟩ := h1
  have hm : (l.map (fun x => (x.p1, x.p2, x.w))).mapM (fun x : ℝ × ℝ × ℝ => (inPrec b fin.2 x.2.1).map (fun prec => (if fin.1 = "mean" then x.1 * prec else x.1, prec, x.2.2))) =
      some (l.map (fun x => (x.m / x.v, 1 / x.v, x.w))) := by
    rw [mapM_eq_some_iff, List.map_map, List.map_map]
    apply List.map_congr_left
    intro x hx
    have ho := hl x hx
    have hv0 : 0 < x.v := lt_of_lt_of_le hb ho.low
    have hp := inPrec_spec hb hb1 ho.second hv0 ho.sat
    rw [min_eq_left ho.high, max_eq_right ho.low] at hp
    simp only [Function.comp_def, hp, Option.map_some]
    congr 2
    have hf := ho.first
    obtain ⟨p1, p2, w, m, v⟩ := x
    obtain ⟨f1, f2⟩ := fin
    simp only at hf ⊢
    cases hf with
    | mean => simp [div_eq_mul_inv]
    | nat => simp
  unfold postPool
  simp only [hr, Option.bind_eq_bind, Option.bind_some, hm, List.map_map, Function.comp_def]
  have e1 : (l.map (fun x => (1 / x.v - 1) * x.w)) = l.map (fun x => x.w * (1 / x.v - 1)) := by simp only [mul_comm]
  have e2 : (l.map (fun x => x.m / x.v * x.w)) = l.map (fun x => x.w * (x.m / x.v)) := by simp only [mul_comm]
  rw [e1, e2]
  cases outSecond fout.2 (kclip (1 + pen * (l.map (fun x => x.w * (1 / x.v - 1))).sum) 1 100000) <;> simp

/-- **C145 (pooling).** For weights and penalty not negative the result describes, in the output format, a Gaussian with
variance at most one: its precision is 1 plus the penalty times the weighted sum of the excesses over one of the precisions of
the frames, limited to 100000, and its natural parameter is the penalty times the weighted sum of those of the frames. -/
theorem C145_pool_values {b : ℝ} (hb : 0 < b) (hb1 : b ≤ 1) {pen : ℝ} (hpen : 0 ≤ pen) {fin fout : String × String} (l : List PFrame)
    (hl : ∀ x ∈ l, x.Ok b fin) (hw : ∀ x ∈ l, 0 ≤ x.w) (hfin : fin.2 ∈ ["logitvar", "logprec-1", "logvar", "logprec", "var", "prec", "prec-1"])
    (ho1 : fout.1 = "mean" ∨ fout.1 = "nat") (ho2 : fout.2 ∈ ["logvar", "var", "logprec", "prec"]) :
    ∃ r1 r2 m v, postPool b pen fin fout (l.map (fun x => (x.p1, x.p2, x.w))) = some (r1, r2) ∧ First fout.1 r1 m v ∧ Second b fout.2 r2 v ∧
      0 < v ∧ v ≤ 1 ∧ 1 / v = min (1 + pen * (l.map (fun x => x.w * (1 / x.v - 1))).sum) 100000 ∧
      m / v = pen * (l.map (fun x => x.w * (x.m / x.v))).sum := by
  rw [postPool_eq hb hb1 pen fin fout l hl hfin]
  have hS : 0 ≤ (l.map (fun x => x.w * (1 / x.v - 1))).sum := by
    apply List.sum_nonneg
    intro a ha
    obtain ⟨x, hx, rfl⟩ := List.mem_map.1 ha
    have ho := hl x hx
    have hv0 : 0 < x.v := lt_of_lt_of_le hb ho.low
    have : 1 ≤ 1 / x.v := by rw [le_div_iff₀ hv0]; linarith [ho.high]
    exact mul_nonneg (hw x hx) (by linarith)
  generalize (l.map (fun x => x.w * (1 / x.v - 1))).sum = S at *
  generalize (l.map (fun x => x.w * (x.m / x.v))).sum = E at *
  have hP : (1 : ℝ) ≤ 1 + pen * S := by nlinarith [mul_nonneg hpen hS]
  have hk : kclip (1 + pen * S) 1 100000 = min (1 + pen * S) 100000 := by unfold kclip; rw [max_eq_left hP]
  rw [hk]
  have hQ : 1 ≤ min (1 + pen * S) 100000 := le_min hP (by norm_num)
  generalize min (1 + pen * S) 100000 = Q at *
  obtain ⟨r2, hr2, hsec⟩ := outSecond_spec b ho2 (v := 1 / Q)
  rw [one_div_one_div] at hr2
  have hQ0 : 0 < Q := by linarith
  have hE : (pen * E / Q) / (1 / Q) = pen * E := by field_simp
  refine ⟨if fout.1 = "mean" then pen * E / Q else pen * E, r2, pen * E / Q, 1 / Q, by rw [hr2]; rfl, ?_, hsec, by positivity, ?_,
    one_div_one_div Q, hE⟩
  · rcases ho1 with h | h
    · rw [h]; exact .mean _ _
    · rw [h]
      have := First.nat (pen * E / Q) (1 / Q)
      rw [hE] at this
      simpa using this
  · rw [div_le_iff₀ hQ0]; linarith

/-- **C145 (pooling, density).** While the precision does not reach 100000 the density of the result is, up to a constant
factor, the standard normal prior times, for each frame, its posterior divided by the prior, to the power penalty times weight. -/
theorem C145_pool_density {b : ℝ} (hb : 0 < b) (hb1 : b ≤ 1) {pen : ℝ} (hpen : 0 ≤ pen) {fin fout : String × String} (l : List PFrame)
    (hl : ∀ x ∈ l, x.Ok b fin) (hw : ∀ x ∈ l, 0 ≤ x.w) (hfin : fin.2 ∈ ["logitvar", "logprec-1", "logvar", "logprec", "var", "prec", "prec-1"])
    (ho1 : fout.1 = "mean" ∨ fout.1 = "nat") (ho2 : fout.2 ∈ ["logvar", "var", "logprec", "prec"])
    (hlim : 1 + pen * (l.map (fun x => x.w * (1 / x.v - 1))).sum ≤ 100000) :
    ∃ r1 r2 m v, postPool b pen fin fout (l.map (fun x => (x.p1, x.p2, x.w))) = some (r1, r2) ∧ First fout.1 r1 m v ∧ Second b fout.2 r2 v ∧
      0 < v ∧ ∃ c, ∀ z, log (gaussianPDFReal m v.toNNReal z) + c = log (gaussianPDFReal 0 1 z) +
        pen * (l.map (fun x => x.w * (log (gaussianPDFReal x.m x.v.toNNReal z) - log (gaussianPDFReal 0 1 z)))).sum := by
  obtain ⟨r1, r2, m, v, h, hF, hS, hv0, -, hv, hm⟩ := C145_pool_values hb hb1 hpen l hl hw hfin ho1 ho2
  refine ⟨r1, r2, m, v, h, hF, hS, hv0, ?_⟩
  rw [min_eq_left hlim] at hv
  have hpos : ∀ x ∈ l, 0 < x.v := fun x hx => lt_of_lt_of_le hb (hl x hx).low
  have expand : ∀ z : ℝ, (l.map (fun x => x.w * (log (gaussianPDFReal x.m x.v.toNNReal z) - log (gaussianPDFReal 0 1 z)))).sum =
      (l.map (fun x => x.w * (-(1 / 2) * log (2 * π * x.v.toNNReal) + 1 / 2 * log (2 * π * ((1 : ℝ≥0) : ℝ)) - x.m ^ 2 / (2 * x.v)))).sum +
      z * (l.map (fun x => x.w * (x.m / x.v))).sum - z ^ 2 / 2 * (l.map (fun x => x.w * (1 / x.v - 1))).sum := by
    intro z
    clear hv hm hlim h hl hw
    induction l with
    | nil => simp
    | cons r rows ih =>
      have ih := ih (fun r hr => hpos r (List.mem_cons_of_mem _ hr))
      have hr := hpos r List.mem_cons_self
      simp only [List.map_cons, List.sum_cons]
      rw [ih, QScore.log_pdf _ _ (by simpa using hr), QScore.log_pdf 0 1 one_ne_zero, Real.coe_toNNReal _ hr.le]
      simp only [NNReal.coe_one]
      field_simp
      ring
  generalize (l.map (fun x => x.w * (x.m / x.v))).sum = E at *
  generalize (l.map (fun x => x.w * (1 / x.v - 1))).sum = S at *
  generalize (l.map (fun x => x.w * (-(1 / 2) * log (2 * π * x.v.toNNReal) + 1 / 2 * log (2 * π * ((1 : ℝ≥0) : ℝ)) - x.m ^ 2 / (2 * x.v)))).sum = A at *
  refine ⟨-(1 / 2) * log (2 * π * ((1 : ℝ≥0) : ℝ)) + pen * A + 1 / 2 * log (2 * π * v) + m ^ 2 / (2 * v), ?_⟩
  intro z
  rw [expand, QScore.log_pdf _ _ (by simpa using hv0), QScore.log_pdf 0 1 one_ne_zero, Real.coe_toNNReal _ hv0.le]
  have h1 : pen * (A + z * E - z ^ 2 / 2 * S) = pen * A + z * (m / v) - z ^ 2 / 2 * (1 / v - 1) := by
    rw [hm, hv]; ring
  rw [h1]
  simp only [NNReal.coe_one]
  field_simp
  ring

/-- **C145 (padding and order).** Frames of weight zero, whatever they contain, and the order of the frames change nothing. -/
theorem C145_padding (b pen : ℝ) (fin fout : String × String) (f g : List (ℝ × ℝ × ℝ))
    (h : (f.filter (fun x => decide (x.2.2 ≠ 0))).Perm (g.filter (fun x => decide (x.2.2 ≠ 0)))) :
    postPool b pen fin fout f = postPool b pen fin fout g := by
  by_cases hn : fin.2 ∉ ["logitvar", "logprec-1", "logvar", "logprec", "var", "prec", "prec-1"]
  · rw [(C145_unknown b pen fin fout 0 0 f).2.2 (Or.inl hn), (C145_unknown b pen fin fout 0 0 g).2.2 (Or.inl hn)]
  have hne : ∀ p, ∃ r, inPrec b fin.2 p = some r := fun p => by
    rw [← Option.ne_none_iff_exists']
    intro h
    have := ((C145_unknown b pen fin ("mean", "var") 1 p []).1.1 (by unfold convertFmt; rw [h]; rfl))
    simp [hn] at this
    simp [this] at hn
  choose q hq using hne
  have hm : ∀ l : List (ℝ × ℝ × ℝ), l.mapM (fun x : ℝ × ℝ × ℝ => (inPrec b fin.2 x.2.1).map (fun prec => (if fin.1 = "mean" then x.1 * prec else x.1, prec, x.2.2))) =
      some (l.map (fun x => (if fin.1 = "mean" then x.1 * q x.2.1 else x.1, q x.2.1, x.2.2))) := by
    intro l
    apply mapM_eq_some_map
    intro x _
    simp [hq]
  have hs : ∀ (u : ℝ × ℝ × ℝ → ℝ), (f.map (fun x => u x * x.2.2)).sum = (g.map (fun x => u x * x.2.2)).sum := by
    intro u
    have hf : ∀ l : List (ℝ × ℝ × ℝ), (l.map (fun x => u x * x.2.2)).sum = ((l.filter (fun x => decide (x.2.2 ≠ 0))).map (fun x => u x * x.2.2)).sum := by
      intro l
      induction l with
      | nil => rfl
      | cons a l ih =>
        rw [List.filter_cons]
        by_cases ha : a.2.2 = 0
        · rw [if_neg (by simp [ha])]; simp [ha, ih]
        · rw [if_pos (by simp [ha])]; simp [ih]
    rw [hf f, hf g]
    exact (h.map _).sum_eq
  unfold postPool
  simp only [hm, List.map_map, Function.comp_def, Option.bind_eq_bind, Option.bind_some]
  rw [hs (fun x => q x.2.1 - 1), hs (fun x => if fin.1 = "mean" then x.1 * q x.2.1 else x.1)]

/-- **C145 (nothing observed).** With all weights zero, or without frames, the result is the prior: mean 0, variance 1. -/
theorem C145_prior {b pen : ℝ} {fin fout : String × String} (f : List (ℝ × ℝ × ℝ)) (hf : ∀ x ∈ f, x.2.2 = 0)
    (hfin : fin.2 ∈ ["logitvar", "logprec-1", "logvar", "logprec", "var", "prec", "prec-1"])
    (ho2 : fout.2 ∈ ["logvar", "var", "logprec", "prec"]) :
    ∃ r2, postPool b pen fin fout f = some (0, r2) ∧ Second b fout.2 r2 1 := by
  rw [C145_padding b pen fin fout f [] (by rw [List.filter_eq_nil_iff.2 (fun x hx => by simp [hf x hx])]; simp)]
  have h1 : ∃ r, inPrec b fin.2 1 = some r := by
    rw [← Option.ne_none_iff_exists']
    intro h
    have := ((C145_unknown b pen fin ("mean", "var") 1 1 []).1.1 (by unfold convertFmt; rw [h]; rfl))
    simp [hfin] at this
  obtain ⟨r, hr⟩ := h1
  obtain ⟨r2, h2, hS⟩ := outSecond_spec b ho2 (v := 1)
  rw [one_div_one] at h2
  refine ⟨r2, ?_, hS⟩
  unfold postPool
  rw [hr]
  simp only [Option.bind_eq_bind, Option.bind_some, List.mapM_nil, Option.pure_def, List.map_nil, List.sum_nil, mul_zero, add_zero]
  rw [kclip_id le_rfl (by norm_num), h2]
  simp

/-- **C145 (defect: long sequences).** The limit on the precision is not applied to the natural parameter: for `n ≥ 101` frames
with mean 1 and variance `0.001` (the default `min_var`), the pooled mean is `n / 100` instead of being below one, and grows
without bound. -/
theorem C145_long_sequences (n : Nat) (hn : 101 ≤ n) :
    postPool (1 / 1000) 1 ("mean", "var") ("mean", "var") (List.replicate n (1, 1 / 1000, 1)) = some ((n : ℝ) / 100, 1 / 100000) := by
  have hn' : (101 : ℝ) ≤ n := by exact_mod_cast hn
  have h := postPool_eq (b := 1 / 1000) (by norm_num) (by norm_num) 1 ("mean", "var") ("mean", "var") (List.replicate n ⟨1, 1 / 1000, 1, 1, 1 / 1000⟩)
    (fun x hx => by
      rw [List.eq_of_mem_replicate hx]
      exact ⟨.mean _ _, .var _, by norm_num, by norm_num, by simp⟩) (by simp)
  rw [List.map_replicate] at h
  rw [h]
  simp only [List.map_replicate, List.sum_replicate, nsmul_eq_mul]
  have hk : kclip (1 + 1 * ((n : ℝ) * (1 * (1 / (1 / 1000) - 1)))) 1 100000 = 100000 := by
    unfold kclip
    rw [max_eq_left (by nlinarith), min_eq_right (by nlinarith)]
  rw [hk]
  have ho : outSecond "var" 100000 = some (1 / 100000) := by simp [outSecond]
  rw [ho, if_pos trivial, Option.map_some]
  congr 2
  ring

/-- **C145 (saturation).** In the two logistic formats values beyond 7 in size act as 7 or -7: precisions stay within
`(1 + exp (-7)) / (1 + b exp (-7))` and `(1 + exp 7) / (1 + b exp 7)`. -/
theorem C145_saturation (b y : ℝ) (hb : 0 < b) (hb1 : b ≤ 1) :
    (7 ≤ y → inPrec b "logprec-1" y = inPrec b "logprec-1" 7 ∧ inPrec b "logitvar" y = inPrec b "logitvar" 7) ∧
    (y ≤ -7 → inPrec b "logprec-1" y = inPrec b "logprec-1" (-7) ∧ inPrec b "logitvar" y = inPrec b "logitvar" (-7)) ∧
    inPrec b "logitvar" y = inPrec b "logprec-1" (-y) ∧
    ∃ q, inPrec b "logprec-1" y = some q ∧ (1 + exp (-7)) / (1 + b * exp (-7)) ≤ q ∧ q ≤ (1 + exp 7) / (1 + b * exp 7) := by
  have c1 : 7 ≤ y → kclip y (-7) 7 = 7 := fun h => by unfold kclip; rw [max_eq_left (by linarith), min_eq_right h]
  have c2 : y ≤ -7 → kclip y (-7) 7 = -7 := fun h => by unfold kclip; rw [max_eq_right h, min_eq_left (by norm_num)]
  have c7 : kclip 7 (-7) 7 = 7 := by unfold kclip; norm_num
  have c7' : kclip (-7) (-7) 7 = -7 := by unfold kclip; norm_num
  have e1 : ∀ y, inPrec b "logprec-1" y = some (logprec1ToPrec b y) := fun y => by simp [inPrec]
  have e2 : ∀ y, inPrec b "logitvar" y = some (logitvarToPrec b y) := fun y => by simp [inPrec]
  simp only [e1, e2]
  unfold logprec1ToPrec logitvarToPrec
  refine ⟨fun h => by rw [c1 h, c7]; exact ⟨rfl, rfl⟩, fun h => by rw [c2 h, c7']; exact ⟨rfl, rfl⟩, ?_, _, rfl, ?_⟩
  · have : kclip (-y) (-7) 7 = -kclip y (-7) 7 := by
      rcases le_total y (-7) with h | h
      · rw [c2 h]
        unfold kclip
        rw [max_eq_left (by linarith), min_eq_right (by linarith)]
        norm_num
      · rcases le_total 7 y with h' | h'
        · rw [c1 h']
          unfold kclip
          rw [max_eq_right (by linarith), min_eq_left (by norm_num)]
        · rw [kclip_id h h', kclip_id (by linarith) (by linarith)]
    rw [this]
  · have hmono : ∀ s t : ℝ, s ≤ t → (1 + exp s) / (1 + b * exp s) ≤ (1 + exp t) / (1 + b * exp t) := by
      intro s t hst
      have h1 := exp_pos s
      have h2 := exp_le_exp.2 hst
      have h3 : 0 < exp t := exp_pos t
      rw [div_le_div_iff₀ (by positivity) (by positivity)]
      nlinarith
    have k1 : -7 ≤ kclip y (-7) 7 := by unfold kclip; exact le_min (le_max_right _ _) (by norm_num)
    have k2 : kclip y (-7) 7 ≤ 7 := by unfold kclip; exact min_le_right _ _
    exact ⟨hmono _ _ k1, hmono _ _ k2⟩

/-- **C145 (scoring).** The score of class `k` is the log of the integral of the product of the Gaussian of the class (mean and
precision are the layer parameters) and the posterior of the observation divided by the standard normal prior. -/
theorem C145_score {C D : Nat} (p1 : Fin C → Fin D → ℝ) (p2 etaT Lt : Fin D → ℝ) (m : Fin D → ℝ) (w t : Fin D → ℝ≥0) (hw : ∀ d, w d ≠ 0) (ht : ∀ d, t d ≠ 0)
    (hp2 : ∀ d, p2 d = 1 / w d) (hLt : ∀ d, Lt d = 1 / t d) (heta : ∀ d, etaT d = m d / t d) (hL : ∀ d, 0 < Lt d + p2 d - 1) (k : Fin C) :
    catQScore p1 p2 etaT Lt k =
      log (∫ y : Fin D → ℝ, ∏ d, gaussianPDFReal (p1 k d) (w d) (y d) * gaussianPDFReal (m d) (t d) (y d) / gaussianPDFReal 0 1 (y d)) := by
  have h := QScore.C104_score (K := C) (n := D) ⟨p1, p2, fun _ => 0⟩ m (fun d => (t d : ℝ)) w t hw ht hp2 (fun _ => rfl)
    (fun d => by have := hL d; rw [hLt] at this; exact this) k
  unfold QScore.agreement at h
  rw [← h]
  unfold catQScore QScore.Model.logp
  have e1 : Lt = fun d => 1 / (t d : ℝ) := funext hLt
  have e2 : etaT = fun d => 1 / (t d : ℝ) * m d := funext fun d => by rw [heta]; ring
  subst e1 e2
  simp only [mul_comm (p2 _) (p1 k _)]

/-- the hypotheses of `C145_score` and `C145_pool_values` are met: precisions 2 and 4, two frames in the default input format -/
example : (∀ _ : Fin 1, (0 : ℝ) < 2 + 4 - 1) ∧
    (∀ x ∈ [PFrame.mk (1 / (1 / 2)) 0 1 1 (1 / 2), PFrame.mk 0 0 2 0 (1 / 2)], x.w ≥ 0) ∧
    PFrame.Ok 0.001 ("nat", "logitvar") ⟨1 / (0.001 + (1 - 0.001) / (1 + exp (-0))), 0, 1, 1, 0.001 + (1 - 0.001) / (1 + exp (-0))⟩ := by
  refine ⟨fun _ => by norm_num, by simp, .nat _ _, .logitvar 0, ?_, ?_, fun _ => by norm_num⟩
  · exact (logistic_bounds (by norm_num) (exp_pos _)).1
  · exact (logistic_bounds (by norm_num) (exp_pos _)).2

end Hyp.Keras
