import Verif.Kaldi.Quant
import Mathlib.Data.Rat.Floor
import Mathlib.Tactic.FinCases

/-! Properties C26 and C27: accuracy, range and monotonicity of the number coding of compressed matrices. -/

namespace Hyp.Kaldi.Quant

variable {K : Type} [Field K] [LinearOrder K] [IsStrictOrderedRing K] [FloorRing K]

theorem trunc_of_nonneg {x : K} (h : 0 ≤ x) : trunc x = ⌊x⌋ := by unfold trunc; rw [if_pos h]

theorem trunc_mono {x y : K} (h : x ≤ y) : trunc x ≤ trunc y := by
  unfold trunc
  split <;> split
  · exact Int.floor_le_floor h
  · rename_i h1 h2; exact absurd (h1.trans h) h2
  · rename_i h1 h2
    have h3 : 0 ≤ ⌊-x⌋ := Int.floor_nonneg.2 (by linarith [not_le.1 h1])
    have h4 : 0 ≤ ⌊y⌋ := Int.floor_nonneg.2 h2
    omega
  · have := Int.floor_le_floor (neg_le_neg h)
    omega

theorem trunc_nonpos {x : K} (h : x < 0) : trunc x ≤ 0 := by
  unfold trunc
  rw [if_neg (not_le.2 h)]
  have h3 : 0 ≤ ⌊-x⌋ := Int.floor_nonneg.2 (by linarith)
  omega

theorem clip01_range (f : K) : 0 ≤ clip01 f ∧ clip01 f ≤ 1 := by
  unfold clip01
  simp only
  split <;> split <;> constructor <;> linarith

theorem clip01_mono {f g : K} (h : f ≤ g) : clip01 f ≤ clip01 g := by
  unfold clip01
  simp only
  split <;> split <;> split <;> (try split) <;> linarith

theorem clip01_id {f : K} (h0 : 0 ≤ f) (h1 : f ≤ 1) : clip01 f = f := by
  unfold clip01
  simp only
  rw [if_neg (not_lt.2 h1), if_neg (not_lt.2 h0)]

/-- the code of a fraction with `N` steps. -/
theorem code_spec (N : Nat) (f : K) :
    let c := trunc (clip01 f * (N : K) + 499 / 1000)
    0 ≤ c ∧ c ≤ (N : Int) ∧ (c : K) ≤ clip01 f * N + 499 / 1000 ∧ clip01 f * N + 499 / 1000 < (c : K) + 1 := by
  have h := clip01_range f
  have hN : (0 : K) ≤ N := Nat.cast_nonneg N
  have h1 : 0 ≤ clip01 f * (N : K) := mul_nonneg h.1 hN
  have h2 : clip01 f * (N : K) ≤ N := by nlinarith [h.2]
  simp only
  rw [trunc_of_nonneg (by linarith)]
  refine ⟨Int.floor_nonneg.2 (by linarith), ?_, Int.floor_le _, Int.lt_floor_add_one _⟩
  have : ⌊clip01 f * (N : K) + 499 / 1000⌋ < (N : Int) + 1 := by
    rw [Int.floor_lt]
    push_cast
    linarith
  omega

theorem u16_spec (mn rg x : K) :
    0 ≤ floatToU16 mn rg x ∧ floatToU16 mn rg x ≤ 65535 ∧
      (floatToU16 mn rg x : K) ≤ clip01 ((x - mn) / rg) * 65535 + 499 / 1000 ∧
      clip01 ((x - mn) / rg) * 65535 + 499 / 1000 < (floatToU16 mn rg x : K) + 1 := by
  have := code_spec (K := K) 65535 ((x - mn) / rg)
  exact_mod_cast this

theorem u8_spec (mn rg x : K) :
    0 ≤ floatToU8 mn rg x ∧ floatToU8 mn rg x ≤ 255 ∧
      (floatToU8 mn rg x : K) ≤ clip01 ((x - mn) / rg) * 255 + 499 / 1000 ∧
      clip01 ((x - mn) / rg) * 255 + 499 / 1000 < (floatToU8 mn rg x : K) + 1 := by
  have := code_spec (K := K) 255 ((x - mn) / rg)
  exact_mod_cast this

theorem frac_range {mn rg x : K} (hr : 0 < rg) (h0 : mn ≤ x) (h1 : x ≤ mn + rg) :
    0 ≤ (x - mn) / rg ∧ (x - mn) / rg ≤ 1 :=
  ⟨div_nonneg (by linarith) hr.le, (div_le_one hr).2 (by linarith)⟩

/-! ## C26 -/

/-- Codes never leave the range of the integer type, whatever the number (in or out of the range of the header). -/
theorem C26_code_range (mn rg x : K) :
    (0 ≤ floatToU16 mn rg x ∧ floatToU16 mn rg x ≤ 65535) ∧ (0 ≤ floatToU8 mn rg x ∧ floatToU8 mn rg x ≤ 255) :=
  ⟨⟨(u16_spec mn rg x).1, (u16_spec mn rg x).2.1⟩, ⟨(u8_spec mn rg x).1, (u8_spec mn rg x).2.1⟩⟩

/-- Coding is monotone, and so is decoding. -/
theorem C26_monotone (mn rg : K) (hr : 0 < rg) :
    (∀ x y : K, x ≤ y → floatToU16 mn rg x ≤ floatToU16 mn rg y ∧ floatToU8 mn rg x ≤ floatToU8 mn rg y) ∧
    (∀ c d : Int, c ≤ d → u16ToFloat mn rg c ≤ u16ToFloat mn rg d ∧ u8ToFloat mn rg c ≤ u8ToFloat mn rg d) := by
  constructor
  · intro x y h
    have h1 : clip01 ((x - mn) / rg) ≤ clip01 ((y - mn) / rg) :=
      clip01_mono (div_le_div_of_nonneg_right (by linarith) hr.le)
    exact ⟨trunc_mono (by linarith), trunc_mono (by linarith)⟩
  · intro c d h
    have h1 : (c : K) ≤ d := Int.cast_le.2 h
    have h2 : (0 : K) ≤ rg * u16Step := mul_nonneg hr.le (by unfold u16Step; norm_num)
    have h3 : (0 : K) ≤ rg / 255 := by positivity
    exact ⟨by unfold u16ToFloat; nlinarith, by unfold u8ToFloat; nlinarith⟩

/-- Coding and decoding a number of the range of the header moves it by at most 0.5011 of a step of the 16 bit
grid (step = range/65535; the excess over one half is the constant 0.499 and the constant 1.5259...e-05). -/
theorem C26_error_u16 (mn rg x : K) (hr : 0 < rg) (h0 : mn ≤ x) (h1 : x ≤ mn + rg) :
    |u16ToFloat mn rg (floatToU16 mn rg x) - x| ≤ 5011 / 10000 * (rg / 65535) := by
  obtain ⟨hc0, hcN, hcl, hcu⟩ := u16_spec mn rg x
  obtain ⟨hf0, hf1⟩ := frac_range hr h0 h1
  rw [clip01_id hf0 hf1] at hcl hcu
  have hc0' : (0 : K) ≤ (floatToU16 mn rg x : K) := Int.cast_nonneg hc0
  have hcN' : (floatToU16 mn rg x : K) ≤ 65535 := by exact_mod_cast hcN
  unfold u16ToFloat
  generalize (floatToU16 mn rg x : K) = c at *
  have hx : x = mn + rg * ((x - mn) / rg) := by field_simp; ring
  generalize (x - mn) / rg = f at *
  have key : |u16Step * c - f| ≤ 5011 / 10000 / 65535 := by
    rw [abs_le]
    unfold u16Step
    constructor <;> linarith
  have : mn + rg * u16Step * c - x = rg * (u16Step * c - f) := by rw [hx]; ring
  rw [this, abs_mul, abs_of_pos hr]
  calc rg * |u16Step * c - f| ≤ rg * (5011 / 10000 / 65535) := mul_le_mul_of_nonneg_left key hr.le
    _ = _ := by ring

/-- The same for one byte: at most 0.501 of a step range/255. -/
theorem C26_error_u8 (mn rg x : K) (hr : 0 < rg) (h0 : mn ≤ x) (h1 : x ≤ mn + rg) :
    |u8ToFloat mn rg (floatToU8 mn rg x) - x| ≤ 501 / 1000 * (rg / 255) := by
  obtain ⟨hc0, hcN, hcl, hcu⟩ := u8_spec mn rg x
  obtain ⟨hf0, hf1⟩ := frac_range hr h0 h1
  rw [clip01_id hf0 hf1] at hcl hcu
  unfold u8ToFloat
  generalize (floatToU8 mn rg x : K) = c at *
  have hx : x = mn + rg * ((x - mn) / rg) := by field_simp; ring
  generalize (x - mn) / rg = f at *
  have key : |c / 255 - f| ≤ 501 / 1000 / 255 := by
    rw [abs_le]
    constructor <;> linarith
  have : mn + rg / 255 * c - x = rg * (c / 255 - f) := by rw [hx]; ring
  rw [this, abs_mul, abs_of_pos hr]
  calc rg * |c / 255 - f| ≤ rg * (501 / 1000 / 255) := mul_le_mul_of_nonneg_left key hr.le
    _ = _ := by ring

/-- Numbers outside the range of the header get the first or the last code. -/
theorem C26_saturation (mn rg x : K) (hr : 0 < rg) :
    (x ≤ mn → floatToU16 mn rg x = 0 ∧ floatToU8 mn rg x = 0) ∧
    (mn + rg ≤ x → floatToU16 mn rg x = 65535 ∧ floatToU8 mn rg x = 255) := by
  constructor
  · intro h
    have : clip01 ((x - mn) / rg) = 0 := by
      have h1 : (x - mn) / rg ≤ 0 := div_nonpos_of_nonpos_of_nonneg (by linarith) hr.le
      refine le_antisymm ?_ (clip01_range _).1
      have := clip01_mono h1
      rwa [clip01_id (le_refl _) zero_le_one] at this
    unfold floatToU16 floatToU8
    rw [this, trunc_of_nonneg (by norm_num), trunc_of_nonneg (by norm_num)]
    constructor <;> (rw [Int.floor_eq_iff]; norm_num)
  · intro h
    have : clip01 ((x - mn) / rg) = 1 := by
      have h1 : 1 ≤ (x - mn) / rg := (one_le_div hr).2 (by linarith)
      refine le_antisymm (clip01_range _).2 ?_
      have := clip01_mono h1
      rwa [clip01_id zero_le_one (le_refl _)] at this
    unfold floatToU16 floatToU8
    rw [this, trunc_of_nonneg (by norm_num), trunc_of_nonneg (by norm_num)]
    constructor <;> (rw [Int.floor_eq_iff]; norm_num)

/-- Coding again what was decoded gives the same code: compressing twice loses nothing more. -/
theorem C26_recode (mn rg : K) (hr : 0 < rg) :
    (∀ c : Int, 0 ≤ c → c ≤ 65535 → floatToU16 mn rg (u16ToFloat mn rg c) = c) ∧
    (∀ c : Int, 0 ≤ c → c ≤ 255 → floatToU8 mn rg (u8ToFloat mn rg c) = c) := by
  constructor
  · intro c h0 h1
    have h0' : (0 : K) ≤ c := Int.cast_nonneg h0
    have h1' : (c : K) ≤ 65535 := by exact_mod_cast h1
    have hf : (u16ToFloat mn rg c - mn) / rg = u16Step * c := by unfold u16ToFloat; field_simp; ring
    unfold floatToU16
    rw [hf, clip01_id (by unfold u16Step; positivity) (by unfold u16Step; linarith),
      trunc_of_nonneg (by unfold u16Step; positivity), Int.floor_eq_iff]
    unfold u16Step
    constructor <;> linarith
  · intro c h0 h1
    have h0' : (0 : K) ≤ c := Int.cast_nonneg h0
    have h1' : (c : K) ≤ 255 := by exact_mod_cast h1
    have hf : (u8ToFloat mn rg c - mn) / rg = c / 255 := by unfold u8ToFloat; field_simp; ring
    unfold floatToU8
    rw [hf, clip01_id (by positivity) (by linarith), trunc_of_nonneg (by positivity), Int.floor_eq_iff]
    constructor <;> linarith

/-- The header of the automatic methods: the range is positive and every element of the matrix lies in it. -/
theorem globalRange_auto {m : Method} (hm : m = .speechFeat ∨ m = .twoByteAuto ∨ m = .oneByteAuto) {xs : List K}
    (hne : xs ≠ []) : ∃ mn rg, globalRange m xs = some (mn, rg) ∧ 0 < rg ∧ ∀ x ∈ xs, mn ≤ x ∧ x ≤ mn + rg := by
  obtain ⟨mn, hmn⟩ : ∃ mn, xs.min? = some mn := by
    cases xs with
    | nil => exact absurd rfl hne
    | cons a l => exact ⟨_, rfl⟩
  obtain ⟨mx, hmx⟩ : ∃ mx, xs.max? = some mx := by
    cases xs with
    | nil => exact absurd rfl hne
    | cons a l => exact ⟨_, rfl⟩
  have h1 := (List.min?_eq_some_iff).1 hmn
  have h2 := (List.max?_eq_some_iff).1 hmx
  have hle : mn ≤ mx := h1.2 mx h2.1
  have habs : 0 ≤ |mn| := abs_nonneg mn
  have hpos : 0 < (if mx = mn then mn + 1 + |mn| else mx) - mn := by
    split
    · linarith
    · rename_i h; have := lt_of_le_of_ne hle (Ne.symm h); linarith
  refine ⟨mn, (if mx = mn then mn + 1 + |mn| else mx) - mn, ?_, hpos, fun x hx => ⟨h1.2 x hx, ?_⟩⟩
  · rcases hm with rfl | rfl | rfl <;>
      (unfold globalRange; simp only [hmn, hmx, Option.bind_eq_bind, Option.bind_some]; rw [if_pos hpos])
  · have h3 := h2.2 x hx
    split
    · rename_i h; linarith
    · linarith

/-- `rows` is a matrix with `cols` columns. -/
def Rect (cols : Nat) (rows : List (List K)) : Prop := ∀ r ∈ rows, r.length = cols

/-- the step of the grid of a linear method: 1/65535 of the range with 2 bytes, 1/255 with 1 byte. -/
def linStep (fmt : Nat) (rg : K) : K := if fmt = 2 then rg / 65535 else rg / 255

theorem lin_at {fmt : Nat} (hf : fmt = 2 ∨ fmt = 3) {mn rg : K} (hr : 0 < rg) {n cols : Nat} {rows : List (List K)}
    {codes : List (List Int)}
    (hc : codes = rows.map (List.map (if fmt = 2 then floatToU16 mn rg else floatToU8 mn rg)))
    {r : List K} {i j : Nat} {x : K} (hi : rows[i]? = some r) (hj : r[j]? = some x)
    (h0 : mn ≤ x) (h1 : x ≤ mn + rg) :
    ∃ y, (CMat.mk fmt mn rg n cols [] codes).at i j = some y ∧ |y - x| ≤ 5011 / 10000 * linStep fmt rg := by
  rcases hf with rfl | rfl
  · refine ⟨u16ToFloat mn rg (floatToU16 mn rg x), ?_, ?_⟩
    · unfold CMat.at
      simp [hc, hi, hj]
    · exact C26_error_u16 mn rg x hr h0 h1
  · refine ⟨u8ToFloat mn rg (floatToU8 mn rg x), ?_, ?_⟩
    · unfold CMat.at
      simp [hc, hi, hj]
    · refine (C26_error_u8 mn rg x hr h0 h1).trans ?_
      unfold linStep
      rw [if_neg (by decide)]
      have : 0 < rg / 255 := by positivity
      linarith

/-- Compressing a matrix with a linear automatic method ('2byte-auto', '1byte-auto', or 'auto' with at most 8 rows)
and decompressing it moves no element by more than 0.5011 steps of the grid of the header. -/
theorem C26_matrix_auto (m : Method) (cols : Nat) (rows : List (List K))
    (hm : m = .twoByteAuto ∨ m = .oneByteAuto ∨ (m = .auto ∧ rows.length ≤ 8)) (hne : rows.flatten ≠ []) :
    ∃ c, compress m cols rows = some c ∧ 0 < c.rg ∧
      ∀ i j r x, rows[i]? = some r → r[j]? = some x →
        ∃ y, c.at i j = some y ∧ |y - x| ≤ 5011 / 10000 * linStep c.fmt c.rg := by
  have hm' : m.resolve rows.length = .twoByteAuto ∨ m.resolve rows.length = .oneByteAuto := by
    rcases hm with rfl | rfl | ⟨rfl, h⟩
    · exact Or.inl rfl
    · exact Or.inr rfl
    · left; unfold Method.resolve; simp only; rw [if_neg (by omega)]
  obtain ⟨mn, rg, hg, hr, hin⟩ := globalRange_auto (m := m.resolve rows.length)
    (by rcases hm' with h | h <;> simp [h]) hne
  have hin' : ∀ i j (r : List K) x, rows[i]? = some r → r[j]? = some x → mn ≤ x ∧ x ≤ mn + rg := fun i j r x hi hj =>
    hin x (List.mem_flatten.2 ⟨r, List.mem_of_getElem? hi, List.mem_of_getElem? hj⟩)
  unfold compress
  rcases hm' with h | h
  · rw [h] at hg
    simp only [h, hg, Option.bind_eq_bind, Option.bind_some, Method.format]
    refine ⟨_, rfl, hr, fun i j r x hi hj => ?_⟩
    exact lin_at (Or.inl rfl) hr rfl hi hj (hin' i j r x hi hj).1 (hin' i j r x hi hj).2
  · rw [h] at hg
    simp only [h, hg, Option.bind_eq_bind, Option.bind_some, Method.format]
    refine ⟨_, rfl, hr, fun i j r x hi hj => ?_⟩
    exact lin_at (Or.inr rfl) hr rfl hi hj (hin' i j r x hi hj).1 (hin' i j r x hi hj).2

/-- The methods with a fixed range: numbers in -32768..32767 and 0..255 come back to within 0.5011 (a step is 1),
numbers in 0..1 to within 0.5011/255. -/
theorem C26_matrix_fixed (cols : Nat) (rows : List (List K)) :
    (∃ c, compress .twoByteSigned cols rows = some c ∧
      ∀ i j r x, rows[i]? = some r → r[j]? = some x → -32768 ≤ x → x ≤ 32767 →
        ∃ y, c.at i j = some y ∧ |y - x| ≤ 5011 / 10000) ∧
    (∃ c, compress .oneByteUnsigned cols rows = some c ∧
      ∀ i j r x, rows[i]? = some r → r[j]? = some x → 0 ≤ x → x ≤ 255 →
        ∃ y, c.at i j = some y ∧ |y - x| ≤ 5011 / 10000) ∧
    (∃ c, compress .oneByte01 cols rows = some c ∧
      ∀ i j r x, rows[i]? = some r → r[j]? = some x → 0 ≤ x → x ≤ 1 →
        ∃ y, c.at i j = some y ∧ |y - x| ≤ 5011 / 10000 * (1 / 255)) := by
  refine ⟨⟨_, rfl, fun i j r x hi hj h0 h1 => ?_⟩, ⟨_, rfl, fun i j r x hi hj h0 h1 => ?_⟩,
    ⟨_, rfl, fun i j r x hi hj h0 h1 => ?_⟩⟩
  · obtain ⟨y, hy, he⟩ := lin_at (K := K) (fmt := 2) (Or.inl rfl) (rg := 65535) (by norm_num) (n := rows.length)
      (cols := cols) rfl hi hj h0 (by linarith)
    refine ⟨y, hy, he.trans (le_of_eq ?_)⟩
    unfold linStep; norm_num
  · obtain ⟨y, hy, he⟩ := lin_at (K := K) (fmt := 3) (Or.inr rfl) (mn := 0) (rg := 255) (by norm_num) (n := rows.length)
      (cols := cols) rfl hi hj h0 (by linarith)
    refine ⟨y, hy, he.trans (le_of_eq ?_)⟩
    unfold linStep; norm_num
  · obtain ⟨y, hy, he⟩ := lin_at (K := K) (fmt := 3) (Or.inr rfl) (mn := 0) (rg := 1) (by norm_num) (n := rows.length)
      (cols := cols) rfl hi hj h0 (by linarith)
    refine ⟨y, hy, he.trans (le_of_eq ?_)⟩
    unfold linStep; norm_num

/-- Integers survive the integer methods: exactly with 1 byte, up to one millionth (the constant 1.5259...e-05)
with 2 bytes. -/
theorem C26_integers (cols : Nat) (rows : List (List K)) :
    (∃ c, compress .oneByteUnsigned cols rows = some c ∧
      ∀ i j r (n : Int), rows[i]? = some r → r[j]? = some (n : K) → 0 ≤ n → n ≤ 255 → c.at i j = some (n : K)) ∧
    (∃ c, compress .twoByteSigned cols rows = some c ∧
      ∀ i j r (n : Int), rows[i]? = some r → r[j]? = some (n : K) → -32768 ≤ n → n ≤ 32767 →
        ∃ y, c.at i j = some y ∧ |y - (n : K)| ≤ 1 / 1000000) := by
  refine ⟨⟨_, rfl, fun i j r n hi hj h0 h1 => ?_⟩, ⟨_, rfl, fun i j r n hi hj h0 h1 => ?_⟩⟩
  · have h2 : u8ToFloat (0 : K) 255 n = n := by unfold u8ToFloat; norm_num
    have h3 := (C26_recode (0 : K) 255 (by norm_num)).2 n h0 h1
    rw [h2] at h3
    have : (CMat.mk 3 (0 : K) 255 rows.length cols [] (rows.map (List.map (floatToU8 (0 : K) 255)))).at i j =
        some (u8ToFloat (0 : K) 255 (floatToU8 (0 : K) 255 (n : K))) := by
      unfold CMat.at
      simp [hi, hj]
    exact this.trans (by rw [h3, h2])
  · have hcode : floatToU16 (-32768 : K) 65535 (n : K) = n + 32768 := by
      have h0' : (-32768 : K) ≤ n := by exact_mod_cast h0
      have h1' : (n : K) ≤ 32767 := by exact_mod_cast h1
      unfold floatToU16
      have : ((n : K) - -32768) / 65535 * 65535 = n + 32768 := by field_simp; ring
      rw [clip01_id (by apply div_nonneg <;> linarith) (by rw [div_le_one (by norm_num)]; linarith), this,
        trunc_of_nonneg (by linarith), Int.floor_eq_iff]
      push_cast
      constructor <;> linarith
    refine ⟨u16ToFloat (-32768 : K) 65535 (n + 32768), ?_, ?_⟩
    · have : (CMat.mk 2 (-32768 : K) 65535 rows.length cols [] (rows.map (List.map (floatToU16 (-32768 : K) 65535)))).at i j =
          some (u16ToFloat (-32768 : K) 65535 (floatToU16 (-32768 : K) 65535 (n : K))) := by
        unfold CMat.at
        simp [hi, hj]
      exact this.trans (by rw [hcode])
    · have h0' : (-32768 : K) ≤ n := by exact_mod_cast h0
      have h1' : (n : K) ≤ 32767 := by exact_mod_cast h1
      unfold u16ToFloat u16Step
      push_cast
      rw [abs_le]
      constructor <;> linarith

theorem charToFloat_scale (p : Perc K) (a : K) (c : Int) :
    charToFloat ⟨p.p0 * a, p.p25 * a, p.p75 * a, p.p100 * a⟩ c = charToFloat p c * a := by
  unfold charToFloat
  simp only
  split
  · ring
  · split <;> ring

/-- `scale(alpha)` multiplies every decompressed element by alpha, in every format. -/
theorem C26_scale (c : CMat K) (alpha : K) (i j : Nat) : (c.scale alpha).at i j = (c.at i j).map (· * alpha) := by
  have h16 : ∀ x : Int, u16ToFloat (c.mn * alpha) (c.rg * alpha) x = u16ToFloat c.mn c.rg x * alpha := by
    intro x; unfold u16ToFloat; ring
  have h8 : ∀ x : Int, u8ToFloat (c.mn * alpha) (c.rg * alpha) x = u8ToFloat c.mn c.rg x * alpha := by
    intro x; unfold u8ToFloat; ring
  unfold CMat.at CMat.scale
  simp only
  split
  · cases h1 : c.heads[j]? with
    | none => simp
    | some h =>
      cases h2 : c.codes[j]? with
      | none => simp
      | some col =>
        cases h3 : col[i]? with
        | none => simp [h3]
        | some x =>
          simp [h3, Perc.toFloat, h16]
          exact charToFloat_scale (h.toFloat c.mn c.rg) alpha x
  · split
    · cases h2 : c.codes[i]? with
      | none => simp
      | some r => cases h3 : r[j]? <;> simp [h3, h16]
    · cases h2 : c.codes[i]? with
      | none => simp
      | some r => cases h3 : r[j]? <;> simp [h3, h8]

/-! ## C27 -/

/-- The header of every column of at least one number is strictly increasing and fits 16 bits. -/
theorem C27_header_strict (mn rg : K) (v : List K) :
    let h := columnHeader mn rg v
    0 ≤ h.p0 ∧ h.p0 < h.p25 ∧ h.p25 < h.p75 ∧ h.p75 < h.p100 ∧ h.p100 ≤ 65535 := by
  unfold columnHeader
  simp only
  have hq : ∀ i, 0 ≤ floatToU16 mn rg (sortedAt v i) ∧ floatToU16 mn rg (sortedAt v i) ≤ 65535 := fun i =>
    (C26_code_range mn rg _).1
  split
  · have h0 := hq 0
    have h1 := hq (v.length / 4)
    have h2 := hq (3 * (v.length / 4))
    have h3 := hq (v.length - 1)
    simp only
    omega
  · have h0 := hq 0
    have h1 := hq 1
    have h2 := hq 2
    have h3 := hq 3
    simp only
    split <;> split <;> split <;> omega

/-- The header spans the column: its first entry is at most the code of the smallest element, its last at least
the code of the largest. -/
theorem header_span (mn rg : K) (hr : 0 < rg) (v : List K) (x : K) (hx : x ∈ v) :
    (columnHeader mn rg v).p0 ≤ floatToU16 mn rg x ∧ floatToU16 mn rg x ≤ (columnHeader mn rg v).p100 := by
  have hsort : (v.mergeSort (fun a b => decide (a ≤ b))).Pairwise (fun a b => a ≤ b) := by
    have := List.pairwise_mergeSort (le := fun a b : K => decide (a ≤ b))
      (by intro a b c h1 h2; simp only [decide_eq_true_eq] at *; exact h1.trans h2)
      (by intro a b; simp only [Bool.or_eq_true, decide_eq_true_eq]; exact le_total a b) v
    exact this.imp (by intro a b h; simpa using h)
  have hmem : x ∈ v.mergeSort (fun a b => decide (a ≤ b)) := List.mem_mergeSort.2 hx
  have hlen : (v.mergeSort (fun a b => decide (a ≤ b))).length = v.length := List.length_mergeSort _
  obtain ⟨k, hk, hkx⟩ := List.getElem_of_mem hmem
  have hge : ∀ i, i ≤ k → sortedAt v i ≤ x := by
    intro i hi
    unfold sortedAt
    rw [List.getD_eq_getElem?_getD, List.getElem?_eq_getElem (by omega), Option.getD_some, ← hkx]
    rcases Nat.lt_or_eq_of_le hi with h | h
    · exact List.pairwise_iff_getElem.1 hsort i k _ _ h
    · subst h; exact le_refl _
  have hle : ∀ i, k ≤ i → i < v.length → x ≤ sortedAt v i := by
    intro i hi hl
    unfold sortedAt
    rw [List.getD_eq_getElem?_getD, List.getElem?_eq_getElem (by omega), Option.getD_some, ← hkx]
    rcases Nat.lt_or_eq_of_le hi with h | h
    · exact List.pairwise_iff_getElem.1 hsort k i _ _ h
    · subst h; exact le_refl _
  have hmono := (C26_monotone mn rg hr).1
  have h0 := (hmono _ _ (hge 0 (Nat.zero_le _))).1
  have hb := (C26_code_range mn rg x).1
  have hkl : k < v.length := by omega
  have hlast := (hmono _ _ (hle (v.length - 1) (by omega) (by omega))).1
  unfold columnHeader
  simp only
  split
  · simp only; omega
  · simp only
    have hn : v.length = 1 ∨ v.length = 2 ∨ v.length = 3 ∨ v.length = 4 := by omega
    rcases hn with hn | hn | hn | hn <;> (rw [hn] at hlast ⊢; simp at hlast ⊢; omega)

/-- The byte code never leaves 0..255, whatever the number and the header. -/
theorem C27_code_range (p : Perc K) (v : K) : 0 ≤ floatToChar p v ∧ floatToChar p v ≤ 255 := by
  unfold floatToChar
  simp only
  split
  · split <;> split <;> omega
  · split
    · split <;> split <;> omega
    · split <;> split <;> omega

/-- a strictly increasing header. -/
def Perc.Strict (p : Perc K) : Prop := p.p0 < p.p25 ∧ p.p25 < p.p75 ∧ p.p75 < p.p100

/-- the header as numbers is strictly increasing. -/
theorem header_toFloat_strict (mn rg : K) (hr : 0 < rg) (v : List K) :
    ((columnHeader mn rg v).toFloat mn rg).Strict := by
  have hs : (0 : K) < rg * u16Step := mul_pos hr (by unfold u16Step; norm_num)
  have key : ∀ a b : Int, a < b → u16ToFloat mn rg a < u16ToFloat mn rg b := by
    intro a b h
    have h1 : (a : K) < b := Int.cast_lt.2 h
    unfold u16ToFloat
    nlinarith
  obtain ⟨_, h1, h2, h3, _⟩ := C27_header_strict mn rg v
  exact ⟨key _ _ h1, key _ _ h2, key _ _ h3⟩

/-- The byte code is monotone in the number. -/
theorem C27_code_monotone (p : Perc K) (hp : p.Strict) (v w : K) (h : v ≤ w) : floatToChar p v ≤ floatToChar p w := by
  obtain ⟨h1, h2, h3⟩ := hp
  have m1 : trunc ((v - p.p0) / (p.p25 - p.p0) * 64 + 1 / 2) ≤ trunc ((w - p.p0) / (p.p25 - p.p0) * 64 + 1 / 2) := by
    apply trunc_mono
    have : (v - p.p0) / (p.p25 - p.p0) ≤ (w - p.p0) / (p.p25 - p.p0) :=
      div_le_div_of_nonneg_right (by linarith) (by linarith)
    linarith
  have m2 : trunc ((v - p.p25) / (p.p75 - p.p25) * 128 + 1 / 2) ≤ trunc ((w - p.p25) / (p.p75 - p.p25) * 128 + 1 / 2) := by
    apply trunc_mono
    have : (v - p.p25) / (p.p75 - p.p25) ≤ (w - p.p25) / (p.p75 - p.p25) :=
      div_le_div_of_nonneg_right (by linarith) (by linarith)
    linarith
  have m3 : trunc ((v - p.p75) / (p.p100 - p.p75) * 63 + 1 / 2) ≤ trunc ((w - p.p75) / (p.p100 - p.p75) * 63 + 1 / 2) := by
    apply trunc_mono
    have : (v - p.p75) / (p.p100 - p.p75) ≤ (w - p.p75) / (p.p100 - p.p75) :=
      div_le_div_of_nonneg_right (by linarith) (by linarith)
    linarith
  unfold floatToChar
  simp only
  by_cases a1 : v < p.p25
  · rw [if_pos a1]
    by_cases b1 : w < p.p25
    · rw [if_pos b1]
      (repeat' split) <;> omega
    · rw [if_neg b1]
      by_cases b2 : w < p.p75
      · rw [if_pos b2]; (repeat' split) <;> omega
      · rw [if_neg b2]; (repeat' split) <;> omega
  · rw [if_neg a1, if_neg (fun b1 => a1 (lt_of_le_of_lt h b1))]
    by_cases a2 : v < p.p75
    · rw [if_pos a2]
      by_cases b2 : w < p.p75
      · rw [if_pos b2]; (repeat' split) <;> omega
      · rw [if_neg b2]; (repeat' split) <;> omega
    · rw [if_neg a2, if_neg (fun b2 => a2 (lt_of_le_of_lt h b2))]
      (repeat' split) <;> omega

/-- the value of a code in a segment from `a` to `b` coded with `N` steps. -/
theorem seg_mono {a b : K} (hab : a < b) {N : K} (hN : 0 < N) {x y : K} (h : x ≤ y) :
    a + (b - a) * x / N ≤ a + (b - a) * y / N := by
  have : (b - a) * x / N ≤ (b - a) * y / N :=
    div_le_div_of_nonneg_right (mul_le_mul_of_nonneg_left h (by linarith)) hN.le
  linarith

theorem charToFloat_seg (p : Perc K) (c : Int) :
    (c ≤ 64 → charToFloat p c = p.p0 + (p.p25 - p.p0) * (c : K) / 64) ∧
    (64 ≤ c → c ≤ 192 → charToFloat p c = p.p25 + (p.p75 - p.p25) * ((c : K) - 64) / 128) ∧
    (192 ≤ c → charToFloat p c = p.p75 + (p.p100 - p.p75) * ((c : K) - 192) / 63) := by
  unfold charToFloat
  refine ⟨fun h => by rw [if_pos h], fun h h' => ?_, fun h => ?_⟩
  · by_cases hc : c ≤ 64
    · have : c = 64 := by omega
      subst this
      rw [if_pos hc]; norm_num
    · rw [if_neg hc, if_pos h']
  · by_cases hc : c ≤ 192
    · have : c = 192 := by omega
      subst this
      rw [if_neg (by norm_num), if_pos hc]; norm_num
    · rw [if_neg (by omega), if_neg hc]

/-- Decoding is monotone in the code. -/
theorem C27_decode_monotone (p : Perc K) (hp : p.Strict) (c d : Int) (h : c ≤ d) : charToFloat p c ≤ charToFloat p d := by
  obtain ⟨h1, h2, h3⟩ := hp
  have s1 : ∀ c d : Int, c ≤ d → d ≤ 64 → charToFloat p c ≤ charToFloat p d := by
    intro c d h hd
    rw [(charToFloat_seg p c).1 (by omega), (charToFloat_seg p d).1 hd]
    exact seg_mono h1 (by norm_num) (Int.cast_le.2 h)
  have s2 : ∀ c d : Int, 64 ≤ c → c ≤ d → d ≤ 192 → charToFloat p c ≤ charToFloat p d := by
    intro c d h0 h hd
    rw [(charToFloat_seg p c).2.1 h0 (by omega), (charToFloat_seg p d).2.1 (by omega) hd]
    exact seg_mono h2 (by norm_num) (by have : (c : K) ≤ d := Int.cast_le.2 h; linarith)
  have s3 : ∀ c d : Int, 192 ≤ c → c ≤ d → charToFloat p c ≤ charToFloat p d := by
    intro c d h0 h
    rw [(charToFloat_seg p c).2.2 h0, (charToFloat_seg p d).2.2 (by omega)]
    exact seg_mono h3 (by norm_num) (by have : (c : K) ≤ d := Int.cast_le.2 h; linarith)
  by_cases a : d ≤ 64
  · exact s1 c d h a
  · by_cases b : d ≤ 192
    · by_cases e : c ≤ 64
      · exact (s1 c 64 e (le_refl _)).trans (s2 64 d (le_refl _) (by omega) b)
      · exact s2 c d (by omega) h b
    · by_cases e : c ≤ 64
      · exact (s1 c 64 e (le_refl _)).trans ((s2 64 192 (le_refl _) (by omega) (le_refl _)).trans (s3 192 d (le_refl _) (by omega)))
      · by_cases e' : c ≤ 192
        · exact (s2 c 192 (by omega) e' (le_refl _)).trans (s3 192 d (le_refl _) (by omega))
        · exact s3 c d (by omega) h

/-- rounding of a number in a segment. -/
theorem seg_round {a b v : K} (hab : a < b) {N : Nat} (hN : 0 < N) (h0 : a ≤ v) (h1 : v ≤ b) :
    0 ≤ trunc ((v - a) / (b - a) * (N : K) + 1 / 2) ∧ trunc ((v - a) / (b - a) * (N : K) + 1 / 2) ≤ (N : Int) ∧
    |a + (b - a) * (trunc ((v - a) / (b - a) * (N : K) + 1 / 2) : K) / N - v| ≤ 1 / 2 * ((b - a) / N) := by
  have hd : 0 < b - a := by linarith
  have hN' : (0 : K) < N := Nat.cast_pos.2 hN
  obtain ⟨hf0, hf1⟩ : 0 ≤ (v - a) / (b - a) ∧ (v - a) / (b - a) ≤ 1 :=
    ⟨div_nonneg (by linarith) hd.le, (div_le_one hd).2 (by linarith)⟩
  have hv : v = a + (b - a) * ((v - a) / (b - a)) := by field_simp; ring
  generalize (v - a) / (b - a) = f at *
  have hfN : 0 ≤ f * (N : K) := mul_nonneg hf0 hN'.le
  have hfN1 : f * (N : K) ≤ N := by nlinarith
  rw [trunc_of_nonneg (by linarith)]
  have hl := Int.floor_le (f * (N : K) + 1 / 2)
  have hu := Int.lt_floor_add_one (f * (N : K) + 1 / 2)
  refine ⟨Int.floor_nonneg.2 (by linarith), ?_, ?_⟩
  · have : ⌊f * (N : K) + 1 / 2⌋ < (N : Int) + 1 := by
      rw [Int.floor_lt]; push_cast; linarith
    omega
  · generalize ((⌊f * (N : K) + 1 / 2⌋ : Int) : K) = c at *
    have he : a + (b - a) * c / N - v = (b - a) / N * (c - f * N) := by
      rw [hv]; field_simp; ring
    rw [he, abs_mul, abs_of_pos (div_pos hd hN')]
    have : |c - f * N| ≤ 1 / 2 := by rw [abs_le]; constructor <;> linarith
    calc (b - a) / N * |c - f * N| ≤ (b - a) / N * (1 / 2) := mul_le_mul_of_nonneg_left this (div_pos hd hN').le
      _ = _ := by ring

/-- the largest distance of two neighbouring code values. -/
def Perc.codeStep (p : Perc K) : K := max ((p.p25 - p.p0) / 64) (max ((p.p75 - p.p25) / 128) ((p.p100 - p.p75) / 63))

theorem clamp_id {c lo hi : Int} (h0 : lo ≤ c) (h1 : c ≤ hi) :
    (if (if c < lo then lo else c) > hi then hi else (if c < lo then lo else c)) = c := by
  rw [if_neg (show ¬ c < lo by omega), if_neg (by omega)]

/-- A number between the first and the last percentile is decoded to within half the distance of neighbouring
code values of the segment it is in. -/
theorem C27_error (p : Perc K) (hp : p.Strict) (v : K) (h0 : p.p0 ≤ v) (h100 : v ≤ p.p100) :
    |charToFloat p (floatToChar p v) - v| ≤
      1 / 2 * (if v < p.p25 then (p.p25 - p.p0) / 64 else if v < p.p75 then (p.p75 - p.p25) / 128 else (p.p100 - p.p75) / 63) := by
  obtain ⟨h1, h2, h3⟩ := hp
  unfold floatToChar
  simp only
  by_cases a1 : v < p.p25
  · rw [if_pos a1, if_pos a1]
    obtain ⟨r0, r1, r2⟩ := seg_round h1 (N := 64) (by norm_num) h0 a1.le
    push_cast at r0 r1 r2
    rw [clamp_id r0 r1, (charToFloat_seg p _).1 r1]
    exact r2
  · rw [if_neg a1, if_neg a1]
    by_cases a2 : v < p.p75
    · rw [if_pos a2, if_pos a2]
      obtain ⟨r0, r1, r2⟩ := seg_round h2 (N := 128) (by norm_num) (not_lt.1 a1) a2.le
      push_cast at r0 r1 r2
      rw [clamp_id (by omega) (by omega), (charToFloat_seg p _).2.1 (by omega) (by omega)]
      push_cast
      rw [add_sub_cancel_left]
      exact r2
    · rw [if_neg a2, if_neg a2]
      obtain ⟨r0, r1, r2⟩ := seg_round h3 (N := 63) (by norm_num) (not_lt.1 a2) h100
      push_cast at r0 r1 r2
      rw [clamp_id (by omega) (by omega), (charToFloat_seg p _).2.2 (by omega)]
      push_cast
      rw [add_sub_cancel_left]
      exact r2

theorem C27_ends (p : Perc K) (hp : p.Strict) (v : K) :
    (v ≤ p.p0 → charToFloat p (floatToChar p v) = p.p0) ∧ (p.p100 ≤ v → charToFloat p (floatToChar p v) = p.p100) := by
  obtain ⟨h1, h2, h3⟩ := hp
  constructor
  · intro h
    have hc : floatToChar p v = 0 := by
      have hm := C27_code_monotone p ⟨h1, h2, h3⟩ v p.p0 h
      have h00 : floatToChar p p.p0 = 0 := by
        unfold floatToChar
        rw [if_pos h1, sub_self, zero_div, zero_mul, trunc_of_nonneg (by norm_num)]
        have : ⌊(0 : K) + 1 / 2⌋ = 0 := by rw [Int.floor_eq_iff]; norm_num
        rw [this]; decide
      have := (C27_code_range p v).1
      omega
    rw [hc, (charToFloat_seg p 0).1 (by omega)]; simp
  · intro h
    have hc : floatToChar p v = 255 := by
      have hm := C27_code_monotone p ⟨h1, h2, h3⟩ p.p100 v h
      have h00 : floatToChar p p.p100 = 255 := by
        unfold floatToChar
        rw [if_neg (by linarith), if_neg (by linarith), div_self (by linarith), trunc_of_nonneg (by norm_num)]
        have : ⌊(1 : K) * 63 + 1 / 2⌋ = 63 := by rw [Int.floor_eq_iff]; norm_num
        rw [this]; decide
      have := (C27_code_range p v).2
      omega
    rw [hc, (charToFloat_seg p 255).2.2 (by omega)]; norm_num

theorem codeStep_le (p : Perc K) (v : K) :
    (if v < p.p25 then (p.p25 - p.p0) / 64 else if v < p.p75 then (p.p75 - p.p25) / 128 else (p.p100 - p.p75) / 63) ≤ p.codeStep := by
  unfold Perc.codeStep
  split
  · exact le_max_left _ _
  · split
    · exact (le_max_left _ _).trans (le_max_right _ _)
    · exact (le_max_right _ _).trans (le_max_right _ _)

/-- Compressing and decompressing a column whose elements lie in the range of the matrix header moves no element
by more than half a code step plus 0.5011 of a step of the 16-bit grid of the percentiles. -/
theorem C27_column_error (mn rg : K) (hr : 0 < rg) (v : List K) (hv : ∀ x ∈ v, mn ≤ x ∧ x ≤ mn + rg) (x : K) (hx : x ∈ v) :
    let p := (columnHeader mn rg v).toFloat mn rg
    |charToFloat p (floatToChar p x) - x| ≤ 1 / 2 * p.codeStep + 5011 / 10000 * (rg / 65535) := by
  intro p
  have hp : p.Strict := header_toFloat_strict mn rg hr v
  have hstep : 0 < p.codeStep :=
    lt_of_lt_of_le (div_pos (by linarith [hp.1]) (by norm_num)) (le_max_left _ _)
  have hgrid : 0 < rg / 65535 := by positivity
  obtain ⟨s0, s1⟩ := header_span mn rg hr v x hx
  have e := abs_le.1 (C26_error_u16 mn rg x hr (hv x hx).1 (hv x hx).2)
  have hm := (C26_monotone mn rg hr).2
  have m0 : p.p0 ≤ u16ToFloat mn rg (floatToU16 mn rg x) := (hm _ _ s0).1
  have m1 : u16ToFloat mn rg (floatToU16 mn rg x) ≤ p.p100 := (hm _ _ s1).1
  by_cases h0 : x < p.p0
  · rw [(C27_ends p hp x).1 h0.le, abs_le]
    constructor <;> linarith
  · by_cases h1 : p.p100 < x
    · rw [(C27_ends p hp x).2 h1.le, abs_le]
      constructor <;> linarith
    · refine (C27_error p hp x (not_lt.1 h0) (not_lt.1 h1)).trans ?_
      have := codeStep_le p x
      linarith

/-- Coding again a decoded value gives the same byte. -/
theorem C27_recode (p : Perc K) (hp : p.Strict) (c : Int) (h0 : 0 ≤ c) (h1 : c ≤ 255) :
    floatToChar p (charToFloat p c) = c := by
  obtain ⟨q1, q2, q3⟩ := hp
  have d1 : 0 < p.p25 - p.p0 := by linarith
  have d2 : 0 < p.p75 - p.p25 := by linarith
  have d3 : 0 < p.p100 - p.p75 := by linarith
  have hround : ∀ n : Int, 0 ≤ n → trunc ((n : K) + 1 / 2) = n := by
    intro n hn
    have : (0 : K) ≤ n := Int.cast_nonneg hn
    rw [trunc_of_nonneg (by linarith), Int.floor_eq_iff]
    constructor <;> linarith
  have hc0 : (0 : K) ≤ c := Int.cast_nonneg h0
  by_cases a : c < 64
  · rw [(charToFloat_seg p c).1 (by omega)]
    have hlt : (c : K) < 64 := by exact_mod_cast a
    unfold floatToChar
    have : (p.p25 - p.p0) * (c : K) / 64 < p.p25 - p.p0 := by
      rw [div_lt_iff₀ (by norm_num)]; nlinarith
    rw [if_pos (by linarith)]
    have he : (p.p0 + (p.p25 - p.p0) * (c : K) / 64 - p.p0) / (p.p25 - p.p0) * 64 = c := by field_simp; ring
    simp only [he, hround c h0]
    exact clamp_id h0 (by omega)
  · by_cases b : c < 192
    · rw [(charToFloat_seg p c).2.1 (by omega) (by omega)]
      have hlt : (c : K) < 192 := by exact_mod_cast b
      have hge : (64 : K) ≤ c := by exact_mod_cast not_lt.1 a
      unfold floatToChar
      have e1 : 0 ≤ (p.p75 - p.p25) * ((c : K) - 64) / 128 :=
        div_nonneg (mul_nonneg d2.le (by linarith)) (by norm_num)
      have e2 : (p.p75 - p.p25) * ((c : K) - 64) / 128 < p.p75 - p.p25 := by
        rw [div_lt_iff₀ (by norm_num)]; nlinarith
      rw [if_neg (by linarith), if_pos (by linarith)]
      have he : (p.p25 + (p.p75 - p.p25) * ((c : K) - 64) / 128 - p.p25) / (p.p75 - p.p25) * 128 = ((c - 64 : Int) : K) := by
        push_cast; field_simp; ring
      simp only [he, hround (c - 64) (by omega)]
      rw [show 64 + (c - 64) = c by omega]
      exact clamp_id (by omega) (by omega)
    · rw [(charToFloat_seg p c).2.2 (by omega)]
      have hge : (192 : K) ≤ c := by exact_mod_cast not_lt.1 b
      unfold floatToChar
      have e1 : 0 ≤ (p.p100 - p.p75) * ((c : K) - 192) / 63 :=
        div_nonneg (mul_nonneg d3.le (by linarith)) (by norm_num)
      rw [if_neg (by linarith), if_neg (by linarith)]
      have he : (p.p75 + (p.p100 - p.p75) * ((c : K) - 192) / 63 - p.p75) / (p.p100 - p.p75) * 63 = ((c - 192 : Int) : K) := by
        push_cast; field_simp; ring
      simp only [he, hround (c - 192) (by omega)]
      rw [show 192 + (c - 192) = c by omega]
      exact clamp_id (by omega) (by omega)

/-- Compressing a matrix with 'speech-feat' (which 'auto' picks above 8 rows) and decompressing it: the header
range holds every element, every column header is strictly increasing, and no element moves by more than half
a code step of its column plus 0.5011 steps of the 16-bit grid. -/
theorem C27_matrix (m : Method) (cols : Nat) (rows : List (List K)) (hrect : Rect cols rows)
    (hm : m = .speechFeat ∨ (m = .auto ∧ 8 < rows.length)) (hne : rows.flatten ≠ []) :
    ∃ c, compress m cols rows = some c ∧ 0 < c.rg ∧ c.fmt = 1 ∧ c.heads.length = cols ∧
      ∀ i j r x, rows[i]? = some r → r[j]? = some x →
        ∃ y h, c.at i j = some y ∧ c.heads[j]? = some h ∧ (h.toFloat c.mn c.rg).Strict ∧
          |y - x| ≤ 1 / 2 * (h.toFloat c.mn c.rg).codeStep + 5011 / 10000 * (c.rg / 65535) := by
  have hm' : m.resolve rows.length = .speechFeat := by
    rcases hm with rfl | ⟨rfl, h⟩
    · rfl
    · unfold Method.resolve; simp only; rw [if_pos (by omega)]
  obtain ⟨mn, rg, hg, hr, hin⟩ := globalRange_auto (m := m.resolve rows.length) (by simp [hm']) hne
  unfold compress
  rw [hm'] at hg
  simp only [hm', hg, Option.bind_eq_bind, Option.bind_some, Method.format]
  refine ⟨_, rfl, hr, rfl, by simp, fun i j r x hi hj => ?_⟩
  have hr' : r ∈ rows := List.mem_of_getElem? hi
  have hjc : j < cols := by
    have := (List.getElem?_eq_some_iff.1 hj).1
    rw [hrect r hr'] at this; exact this
  have hcol : (column rows j)[i]? = some x := by
    unfold column
    rw [List.getElem?_map, hi, Option.map_some, List.getD_eq_getElem?_getD, hj]; rfl
  have hcolin : ∀ y ∈ column rows j, mn ≤ y ∧ y ≤ mn + rg := by
    intro y hy
    obtain ⟨r', hr', rfl⟩ := List.mem_map.1 hy
    refine hin _ (List.mem_flatten.2 ⟨r', hr', ?_⟩)
    rw [List.getD_eq_getElem?_getD, List.getElem?_eq_getElem (by rw [hrect r' hr']; exact hjc), Option.getD_some]
    exact List.getElem_mem _
  refine ⟨_, columnHeader mn rg (column rows j), ?_, ?_, header_toFloat_strict mn rg hr _,
    C27_column_error mn rg hr (column rows j) hcolin x (List.mem_of_getElem? hcol)⟩
  · unfold CMat.at
    simp [hjc, hcol]
  · simp [hjc]

/-! ### a concrete case -/

example : floatToU16 (0 : ℚ) 10 3 = 19660 ∧ floatToU8 (0 : ℚ) 10 3 = 76 := by
  constructor
  · unfold floatToU16 clip01 trunc; norm_num
  · unfold floatToU8 clip01 trunc; norm_num

example : Rect 2 [[(1 : ℚ), 2], [3, 5]] ∧ [[(1 : ℚ), 2], [3, 5]].flatten ≠ [] := by
  constructor
  · intro r hr; fin_cases hr <;> rfl
  · simp

end Hyp.Kaldi.Quant
