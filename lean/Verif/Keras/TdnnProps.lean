import Verif.Keras.Tdnn
import Verif.Keras.SeqEmbed
import Mathlib.Data.List.GetD
import Mathlib.Tactic.Ring
import Mathlib.Tactic.Linarith
import Mathlib.Tactic.Positivity
import Mathlib.Algebra.Order.Floor.Ring

/-! C166: the context that the TDNN constructors report. -/

namespace Hyp.Keras.Tdnn

variable {F : Type}

/-! ### Specification -/

/-- frame `i` of a sequence, for any integer `i`: nothing before the start and after the end -/
def At {A : Type} (x : List A) (i : Int) : Option A := if 0 ≤ i then x[i.toNat]? else none

/-- frame `t` of the result of `g` is determined by the frames `t - l, …, t + r` of its argument (and by which of these
positions are outside of the sequence): sequences that agree there, possibly at another position, give the same frame -/
def Window {A B : Type} (g : List A → List B) (l r : Nat) : Prop :=
  ∀ (x x' : List A) (t t' : Int), (∀ δ : Int, -(l : Int) ≤ δ → δ ≤ r → At x (t + δ) = At x' (t' + δ)) → At (g x) t = At (g x') t'

/-- `ks` and `ds` are the kernel sizes and dilation rates of the layers `0, …, n - 1` for the given arguments: a list is taken
as it is, one kernel size is used by all layers, one dilation rate `d` gives `d, d + factor, d + 2 factor, …` -/
structure Sizes (n : Nat) (kernel dil : NumOr) (factor : Nat) (ks ds : List Nat) : Prop where
  klen : ks.length = n
  dlen : ds.length = n
  kmany : ∀ l, kernel = .many l → ks = l
  kone : ∀ k, kernel = .one k → ∀ a ∈ ks, a = k
  dmany : ∀ l, dil = .many l → ds = l
  done : ∀ d, dil = .one d → ∀ (i a : Nat), ds[i]? = some a → a = d + i * factor

/-! ### Lemmas -/

theorem At_map {A B : Type} (f : A → B) (x : List A) (i : Int) : At (x.map f) i = (At x i).map f := by
  unfold At; split
  · rw [List.getElem?_map]
  · rfl

theorem At_none {A : Type} (x : List A) (i : Int) : At x i = none ↔ i < 0 ∨ (x.length : Int) ≤ i := by
  unfold At; split
  · rename_i h
    rw [List.getElem?_eq_none_iff]
    omega
  · rename_i h
    exact ⟨fun _ => Or.inl (by omega), fun _ => rfl⟩

theorem At_ne {A : Type} (x : List A) (i : Int) : At x i ≠ none ↔ 0 ≤ i ∧ i < x.length := by
  rw [Ne, At_none]; omega

/-- zero frames in front -/
def front (pad : Pad) (tot : Nat) : Nat := match pad with
  | .same => tot / 2
  | .valid => 0
  | .causal => tot

/-- zero frames behind -/
def back (pad : Pad) (tot : Nat) : Nat := match pad with
  | .same => tot - tot / 2
  | .valid => 0
  | .causal => 0

theorem padded_getD (a b : Nat) (z : F) (x : List F) (n : Nat) :
    (List.replicate a z ++ x ++ List.replicate b z).getD n z = (At x ((n : Int) - a)).getD z := by
  rw [List.getD_eq_getElem?_getD]
  unfold At
  by_cases h : n < a
  · rw [if_neg (by omega), List.append_assoc, List.getElem?_append_left (by rw [List.length_replicate]; exact h), List.getElem?_replicate_of_lt h]
    rfl
  · rw [if_pos (by omega), List.append_assoc, List.getElem?_append_right (by rw [List.length_replicate]; omega), List.length_replicate]
    have hn : ((n : Int) - a).toNat = n - a := by omega
    rw [hn]
    by_cases h2 : n - a < x.length
    · rw [List.getElem?_append_left h2]
    · rw [List.getElem?_append_right (by omega), List.getElem?_eq_none_iff.2 (by omega : x.length ≤ n - a)]
      by_cases h3 : n - a - x.length < b
      · rw [List.getElem?_replicate_of_lt h3]; rfl
      · rw [List.getElem?_eq_none_iff.2 (by rw [List.length_replicate]; omega)]

theorem conv1d_eq (pad : Pad) (d k : Nat) (z : F) (f : List F → F) (x : List F) :
    conv1d pad d k z f x = (List.range (front pad (d * (k - 1)) + x.length + back pad (d * (k - 1)) - d * (k - 1))).map
      (fun t => f ((List.range k).map (fun j => (At x (((t + j * d : Nat) : Int) - front pad (d * (k - 1)))).getD z))) := by
  have key : ∀ a b tot : Nat, (List.range ((List.replicate a z ++ x ++ List.replicate b z).length - tot)).map
        (fun t => f ((List.range k).map (fun j => (List.replicate a z ++ x ++ List.replicate b z).getD (t + j * d) z)))
      = (List.range (a + x.length + b - tot)).map (fun t => f ((List.range k).map (fun j => (At x (((t + j * d : Nat) : Int) - a)).getD z))) := by
    intro a b tot
    rw [List.length_append, List.length_append, List.length_replicate, List.length_replicate]
    apply List.map_congr_left
    intro t _
    congr 1
    apply List.map_congr_left
    intro j _
    exact padded_getD a b z x (t + j * d)
  cases pad
  · exact key _ _ _
  · have := key 0 0 (d * (k - 1))
    simp only [List.replicate_zero, List.nil_append, List.append_nil] at this
    exact this
  · have := key (d * (k - 1)) 0 (d * (k - 1))
    simp only [List.replicate_zero, List.append_nil] at this
    exact this

theorem conv1d_length (pad : Pad) (d k : Nat) (z : F) (f : List F → F) (x : List F) :
    (conv1d pad d k z f x).length = front pad (d * (k - 1)) + x.length + back pad (d * (k - 1)) - d * (k - 1) := by
  rw [conv1d_eq, List.length_map, List.length_range]

theorem conv1d_at (pad : Pad) (d k : Nat) (z : F) (f : List F → F) (x : List F) (t : Int)
    (h0 : 0 ≤ t) (h1 : t + d * (k - 1) < (front pad (d * (k - 1)) + x.length + back pad (d * (k - 1)) : Nat)) (hk : 1 ≤ k):
    At (conv1d pad d k z f x) t = some (f ((List.range k).map (fun j : Nat => (At x (t + (j * d : Nat) - front pad (d * (k - 1)))).getD z))) := by
  have hcast : ((d * (k - 1) : Nat) : Int) = d * (k - 1) := by push_cast [Nat.cast_sub hk]; rfl
  rw [conv1d_eq]
  unfold At
  rw [if_pos h0, List.getElem?_map, List.getElem?_range (by omega)]
  simp only [Option.map_some, Option.some.injEq]
  congr 1
  apply List.map_congr_left
  intro j _
  have : (((t.toNat + j * d : Nat) : Int) - front pad (d * (k - 1))) = t + (j * d : Nat) - front pad (d * (k - 1)) := by
    push_cast; omega
  rw [this]

/-- the window of one convolution -/
theorem window_conv (pad : Pad) (d k : Nat) (z : F) (f : List F → F) (hk : 1 ≤ k) :
    Window (conv1d pad d k z f) (front pad (d * (k - 1))) (d * (k - 1) - front pad (d * (k - 1))) := by
  have hcast : ((d * (k - 1) : Nat) : Int) = d * (k - 1) := by push_cast [Nat.cast_sub hk]; rfl
  intro x x' t t' h
  have hle : front pad (d * (k - 1)) ≤ d * (k - 1) := by
    cases pad <;> simp only [front] <;> omega
  -- inside or outside
  have hin : ∀ (y : List F) (s : Int), (0 ≤ s ∧ s + d * (k - 1) < (front pad (d * (k - 1)) + y.length + back pad (d * (k - 1)) : Nat)) ↔
      (At y s ≠ none ∧ (pad = .valid → At y (s + (d * (k - 1) : Nat)) ≠ none)) := by
    intro y s
    rw [At_ne, At_ne, ← hcast]
    cases pad <;> simp only [front, back, reduceCtorEq, false_imp_iff, forall_true_left, and_true] <;> omega
  have h00 := h 0 (by omega) (by omega)
  rw [add_zero, add_zero] at h00
  by_cases hs : 0 ≤ t ∧ t + d * (k - 1) < (front pad (d * (k - 1)) + x.length + back pad (d * (k - 1)) : Nat)
  · have hs' : 0 ≤ t' ∧ t' + d * (k - 1) < (front pad (d * (k - 1)) + x'.length + back pad (d * (k - 1)) : Nat) := by
      rw [hin] at hs ⊢
      refine ⟨h00 ▸ hs.1, fun hv => ?_⟩
      have := h (d * (k - 1) : Nat) (by omega) (by subst hv; simp only [front]; omega)
      rw [← this]; exact hs.2 hv
    rw [conv1d_at pad d k z f x t hs.1 hs.2 hk, conv1d_at pad d k z f x' t' hs'.1 hs'.2 hk]
    congr 2
    apply List.map_congr_left
    intro j hj
    have hj' : j * d ≤ d * (k - 1) := by
      rw [Nat.mul_comm]; exact Nat.mul_le_mul_left _ (by have := List.mem_range.1 hj; omega)
    have := h ((j * d : Nat) - (front pad (d * (k - 1)) : Int)) (by omega) (by omega)
    rw [← add_sub_assoc, ← add_sub_assoc] at this
    rw [this]
  · have hs' : ¬ (0 ≤ t' ∧ t' + d * (k - 1) < (front pad (d * (k - 1)) + x'.length + back pad (d * (k - 1)) : Nat)) := by
      intro hs'
      apply hs
      rw [hin] at hs' ⊢
      refine ⟨h00 ▸ hs'.1, fun hv => ?_⟩
      have := h (d * (k - 1) : Nat) (by omega) (by subst hv; simp only [front]; omega)
      rw [this]; exact hs'.2 hv
    have hn : ∀ (y : List F) (s : Int), ¬ (0 ≤ s ∧ s + d * (k - 1) < (front pad (d * (k - 1)) + y.length + back pad (d * (k - 1)) : Nat)) →
        At (conv1d pad d k z f y) s = none := by
      intro y s hh
      rw [At_none, conv1d_length]
      rw [← hcast] at hh
      omega
    rw [hn x t hs, hn x' t' hs']

theorem window_map {A B : Type} (f : A → B) : Window (List.map f) 0 0 := by
  intro x x' t t' h
  rw [At_map, At_map]
  have := h 0 (by omega) (by omega)
  rw [add_zero, add_zero] at this
  rw [this]

theorem window_id {A : Type} : Window (fun x : List A => x) 0 0 := by
  intro x x' t t' h
  have := h 0 (by omega) (by omega)
  rwa [add_zero, add_zero] at this

theorem window_comp {A B C : Type} {g : List A → List B} {h : List B → List C} {l r l' r' : Nat} (hg : Window g l r) (hh : Window h l' r') :
    Window (fun x => h (g x)) (l + l') (r + r') := by
  intro x x' t t' ha
  apply hh
  intro δ h1 h2
  apply hg
  intro ε h3 h4
  have := ha (δ + ε) (by omega) (by omega)
  rwa [add_assoc, add_assoc]

theorem window_mono {A B : Type} {g : List A → List B} {l r l' r' : Nat} (hg : Window g l r) (hl : l ≤ l') (hr : r ≤ r') : Window g l' r' := by
  intro x x' t t' ha
  exact hg x x' t t' (fun δ h1 h2 => ha δ (by omega) (by omega))

theorem window_bnIf (c : TdCfg) (f : F → F) : Window (bnIf c f) 0 0 := by
  unfold bnIf
  split
  · exact window_map f
  · exact window_id

theorem window_tdLayer (c : TdCfg) (ds ks : List Nat) (P : Params F) (z : F) (i : Nat) (hk : 1 ≤ ks.getD i 1) :
    Window (fun h => tdLayer c ds ks P z h i) (front c.pad (ds.getD i 1 * (ks.getD i 1 - 1)))
      (ds.getD i 1 * (ks.getD i 1 - 1) - front c.pad (ds.getD i 1 * (ks.getD i 1 - 1))) := by
  have := window_comp (window_comp (window_bnIf c (P.bnTd i)) (window_conv c.pad (ds.getD i 1) (ks.getD i 1) z (P.conv i) hk)) (window_map P.act)
  simp only [Nat.zero_add, Nat.add_zero] at this
  exact this

theorem window_fcLayer (c : TdCfg) (P : Params F) (i : Nat) : Window (fun h => fcLayer c P h i) 0 0 :=
  window_comp (window_comp (window_bnIf c (P.bnFc i)) (window_map (P.fc i))) (window_map P.act)

/-- a chain of layers -/
theorem window_fold (step : List F → Nat → List F) (l r : Nat → Nat) (is : List Nat) (h : ∀ i ∈ is, Window (fun x => step x i) (l i) (r i)) :
    Window (fun x => is.foldl step x) (is.map l).sum (is.map r).sum := by
  induction is with
  | nil => exact window_id
  | cons i is ih =>
    simp only [List.map_cons, List.sum_cons, List.foldl_cons]
    exact window_comp (h i List.mem_cons_self) (ih (fun j hj => h j (List.mem_cons_of_mem _ hj)))

theorem sizes_kernels {n fac : Nat} {kernel dil : NumOr} {ks ds : List Nat} (h : Sizes n kernel dil fac ks ds) : kernels n kernel = some ks := by
  cases hk : kernel with
  | one k =>
    show some _ = some _
    congr 1
    apply List.ext_getElem
    · rw [List.length_map, List.length_range, h.klen]
    · intro i h1 h2
      rw [List.getElem_map]
      exact (h.kone k hk _ (List.getElem_mem h2)).symm
  | many l =>
    have := h.kmany l hk
    subst this
    exact if_pos h.klen.symm

theorem sizes_dilations {n fac : Nat} {kernel dil : NumOr} {ks ds : List Nat} (h : Sizes n kernel dil fac ks ds) : dilations n fac dil = some ds := by
  cases hd : dil with
  | one d =>
    show some _ = some _
    congr 1
    apply List.ext_getElem
    · rw [List.length_map, List.length_range, h.dlen]
    · intro i h1 h2
      rw [List.getElem_map, List.getElem_range, h.done d hd i _ (List.getElem?_eq_getElem h2), Nat.mul_comm, Nat.add_comm]
  | many l =>
    have := h.dmany l hd
    subst this
    exact if_pos h.dlen.symm

/-- the sum over the layers -/
theorem sum_layers (g : Nat → Nat) (n : Nat) (ks ds : List Nat) (hk : ks.length = n) (hd : ds.length = n) :
    ((List.range n).map (fun i => g (ds.getD i 1 * (ks.getD i 1 - 1)))).sum = (List.zipWith (fun d k => g (d * (k - 1))) ds ks).sum := by
  congr 1
  apply List.ext_getElem
  · rw [List.length_map, List.length_range, List.length_zipWith, hk, hd, Nat.min_self]
  · intro i h1 h2
    rw [List.length_map, List.length_range] at h1
    rw [List.getElem_map, List.getElem_range, List.getElem_zipWith, List.getD_eq_getElem _ _ (by omega), List.getD_eq_getElem _ _ (by omega)]

theorem ks_getD (ks : List Nat) (hk : ∀ k ∈ ks, 1 ≤ k) (i : Nat) : 1 ≤ ks.getD i 1 := by
  rw [List.getD_eq_getElem?_getD]
  cases h : ks[i]? with
  | none => exact Nat.le_refl 1
  | some a => exact hk a (List.mem_of_getElem? h)

/-- the reported context is half of the sum, rounded down -/
theorem context_eq (ds ks : List Nat) : context ds ks = (List.zipWith (fun d k => d * (k - 1)) ds ks).sum / 2 := by
  have h : (List.zipWith (fun d k => ((d * (k - 1) : Nat) : ℚ) / 2) ds ks).sum = (((List.zipWith (fun d k => d * (k - 1)) ds ks).sum : Nat) : ℚ) / 2 := by
    induction ds generalizing ks with
    | nil => simp
    | cons d ds ih =>
      cases ks with
      | nil => simp
      | cons k ks =>
        rw [List.zipWith_cons_cons, List.zipWith_cons_cons, List.sum_cons, List.sum_cons, ih, Nat.cast_add, add_div]
  unfold context
  rw [h]
  have : ⌊(((List.zipWith (fun d k => d * (k - 1)) ds ks).sum : Nat) : ℚ) / 2⌋ = (((List.zipWith (fun d k => d * (k - 1)) ds ks).sum / 2 : Nat) : Int) := by
    generalize (List.zipWith (fun d k => d * (k - 1)) ds ks).sum = n
    rw [Int.floor_eq_iff]
    have hm := Nat.div_add_mod n 2
    have hl := Nat.mod_lt n (by decide : 0 < 2)
    have hq : ((2 * (n / 2) + n % 2 : Nat) : ℚ) = (n : ℚ) := by rw [hm]
    push_cast at hq
    have hl' : ((n % 2 : Nat) : ℚ) ≤ 1 := by exact_mod_cast (by omega : n % 2 ≤ 1)
    have h0 : (0 : ℚ) ≤ ((n % 2 : Nat) : ℚ) := by positivity
    rw [Int.cast_natCast]
    constructor <;> linarith
  rw [this, Int.toNat_natCast]

theorem fcAssert_iff (n : Nat) (u : NumOr) : fcAssert n u = some () ↔ ∀ l, u = .many l → l.length = n := by
  cases u with
  | one k =>
    refine ⟨fun _ l h => (by cases h), fun _ => rfl⟩
  | many l =>
    show (if n = l.length then some () else none) = some () ↔ _
    constructor
    · intro h l' h'
      cases h'
      by_cases hn : n = l.length
      · exact hn.symm
      · rw [if_neg hn] at h; cases h
    · intro h
      exact if_pos (h l rfl).symm

/-- the network of `TDNNV1` for given sizes -/
theorem tdnnV1_eq (c : TdCfg) (P : Params F) (z : F) (ks ds : List Nat) (h : Sizes c.numTd c.kernel c.dil c.dilFactor ks ds) (h1 : 1 ≤ c.numTd)
    (h2 : 1 ≤ c.numFc) (h3 : ∀ l, c.fcUnits = .many l → l.length = c.numFc - 1) :
    tdnnV1 c P z = some (fun x =>
      (bnIf c P.bnOut ((List.range (c.numFc - 1)).foldl (fcLayer c P) ((List.range c.numTd).foldl (tdLayer c ds ks P z) x))).map P.out, context ds ks) := by
  unfold tdnnV1
  rw [sizes_kernels h, sizes_dilations h, (fcAssert_iff _ _).2 h3]
  simp only [guard, if_pos h1, if_pos h2]
  rfl

theorem sum_zero_map (is : List Nat) : (is.map (fun _ => 0)).sum = 0 := by
  induction is with
  | nil => rfl
  | cons a l ih => rw [List.map_cons, List.sum_cons, ih]

theorem window_chain (c : TdCfg) (ds ks : List Nat) (P : Params F) (z : F) (n : Nat) (hk : ∀ k ∈ ks, 1 ≤ k) (hkl : ks.length = n) (hdl : ds.length = n) :
    Window (fun x => (List.range n).foldl (tdLayer c ds ks P z) x) (List.zipWith (fun d k => front c.pad (d * (k - 1))) ds ks).sum
      (List.zipWith (fun d k => d * (k - 1) - front c.pad (d * (k - 1))) ds ks).sum := by
  have := window_fold (tdLayer c ds ks P z) _ _ (List.range n) (fun i _ => window_tdLayer c ds ks P z i (ks_getD ks hk i))
  rw [sum_layers (front c.pad) n ks ds hkl hdl, sum_layers (fun t => t - front c.pad t) n ks ds hkl hdl] at this
  exact this

theorem window_fcs (c : TdCfg) (P : Params F) (n : Nat) : Window (fun x => (List.range n).foldl (fcLayer c P) x) 0 0 := by
  have := window_fold (fcLayer c P) (fun _ => 0) (fun _ => 0) (List.range n) (fun i _ => window_fcLayer c P i)
  rw [sum_zero_map] at this
  exact this

theorem window_net (c : TdCfg) (ds ks : List Nat) (P : Params F) (z : F) (n m : Nat) (hk : ∀ k ∈ ks, 1 ≤ k) (hkl : ks.length = n) (hdl : ds.length = n) :
    Window (fun x => (bnIf c P.bnOut ((List.range m).foldl (fcLayer c P) ((List.range n).foldl (tdLayer c ds ks P z) x))).map P.out)
      (List.zipWith (fun d k => front c.pad (d * (k - 1))) ds ks).sum (List.zipWith (fun d k => d * (k - 1) - front c.pad (d * (k - 1))) ds ks).sum :=
  window_comp (window_comp (window_comp (window_chain c ds ks P z n hk hkl hdl) (window_fcs c P m)) (window_bnIf c P.bnOut)) (window_map P.out)

/-- **C166 (which frames).** For every number of layers, every kernel sizes and dilation rates and every weights, output frame
`t` of `TDNNV1` is determined by the input frames from `t - l` to `t + r`, where with `same` padding `l` is the sum of the
halves of `d (k - 1)` rounded down and `r` the sum of the halves rounded up, with `valid` padding `l = 0` and `r` is the sum of
the `d (k - 1)`, and with `causal` padding the other way round. -/
theorem C166_window (c : TdCfg) (P : Params F) (z : F) (ks ds : List Nat) (h : Sizes c.numTd c.kernel c.dil c.dilFactor ks ds) (hk : ∀ k ∈ ks, 1 ≤ k)
    (net : List F → List F) (ctx : Nat) (hnet : tdnnV1 c P z = some (net, ctx)) :
    (c.pad = .same → Window net (List.zipWith (fun d k => d * (k - 1) / 2) ds ks).sum (List.zipWith (fun d k => (d * (k - 1) + 1) / 2) ds ks).sum) ∧
    (c.pad = .valid → Window net 0 (List.zipWith (fun d k => d * (k - 1)) ds ks).sum) ∧
    (c.pad = .causal → Window net (List.zipWith (fun d k => d * (k - 1)) ds ks).sum 0) := by
  have hn : net = fun x =>
      (bnIf c P.bnOut ((List.range (c.numFc - 1)).foldl (fcLayer c P) ((List.range c.numTd).foldl (tdLayer c ds ks P z) x))).map P.out := by
    unfold tdnnV1 at hnet
    rw [sizes_kernels h, sizes_dilations h] at hnet
    by_cases h1 : 1 ≤ c.numTd
    · by_cases h2 : 1 ≤ c.numFc
      · cases hf : fcAssert (c.numFc - 1) c.fcUnits with
        | none => rw [hf] at hnet; simp [guard, h1, h2] at hnet
        | some u =>
          rw [hf] at hnet
          simp only [guard, if_pos h1, if_pos h2] at hnet
          exact (congrArg Prod.fst (Option.some.inj hnet)).symm
      · simp [guard, h1, h2] at hnet
    · simp [guard, h1] at hnet
  have hw := window_net c ds ks P z c.numTd (c.numFc - 1) hk h.klen h.dlen
  rw [hn]
  have zz : ∀ (f : Nat → Nat → Nat), (∀ d k, f d k = 0) → (List.zipWith f ds ks).sum = 0 := by
    intro f hf
    have : List.zipWith f ds ks = (List.zipWith (fun d k => d * (k - 1)) ds ks).map (fun _ => 0) := by
      rw [List.map_zipWith]
      have : f = fun _ _ => 0 := by funext d k; exact hf d k
      rw [this]
    rw [this, sum_zero_map]
  have ff : ∀ (f g : Nat → Nat → Nat), (∀ d k, f d k = g d k) → List.zipWith f ds ks = List.zipWith g ds ks := by
    intro f g hf
    have : f = g := by funext d k; exact hf d k
    rw [this]
  refine ⟨fun hp => ?_, fun hp => ?_, fun hp => ?_⟩
  · rw [hp] at hw
    rw [ff (fun d k => (d * (k - 1) + 1) / 2) (fun d k => d * (k - 1) - front .same (d * (k - 1))) (by intro d k; simp only [front]; omega)]
    exact hw
  · rw [hp, zz (fun d k => front .valid (d * (k - 1))) (by intro d k; rfl)] at hw
    exact hw
  · rw [hp, zz (fun d k => d * (k - 1) - front .causal (d * (k - 1))) (by intro d k; simp only [front]; omega)] at hw
    exact hw

/-- **C166 (arguments).** The constructor accepts its arguments exactly when there is at least one layer of each kind and
every list has one entry per layer (one less for the dense layers); then the sizes of the layers are as specified and the
reported context is half of the sum of the `d (k - 1)`, rounded down. -/
theorem C166_arguments (c : TdCfg) (P : Params F) (z : F) :
    (tdnnV1 c P z ≠ none ↔ 1 ≤ c.numTd ∧ 1 ≤ c.numFc ∧ (∀ l, c.kernel = .many l → l.length = c.numTd) ∧ (∀ l, c.dil = .many l → l.length = c.numTd) ∧
      ∀ l, c.fcUnits = .many l → l.length + 1 = c.numFc) ∧
    ∀ net ctx, tdnnV1 c P z = some (net, ctx) → ∃ ks ds, Sizes c.numTd c.kernel c.dil c.dilFactor ks ds ∧
      ctx = (List.zipWith (fun d k => d * (k - 1)) ds ks).sum / 2 := by
  have sz : (∀ l, c.kernel = .many l → l.length = c.numTd) → (∀ l, c.dil = .many l → l.length = c.numTd) →
      ∃ ks ds, Sizes c.numTd c.kernel c.dil c.dilFactor ks ds := by
    intro hk hd
    have k1 : ∃ ks : List Nat, ks.length = c.numTd ∧ (∀ l, c.kernel = .many l → ks = l) ∧ (∀ k, c.kernel = .one k → ∀ a ∈ ks, a = k) := by
      cases h : c.kernel with
      | one k =>
        refine ⟨List.replicate c.numTd k, List.length_replicate, fun l h => (by cases h), fun k' h' a ha => ?_⟩
        cases h'
        exact (List.mem_replicate.1 ha).2
      | many l =>
        refine ⟨l, hk l h, fun l' h' => (by cases h'; rfl), fun k' h' => (by cases h')⟩
    have d1 : ∃ ds : List Nat, ds.length = c.numTd ∧ (∀ l, c.dil = .many l → ds = l) ∧
        (∀ d, c.dil = .one d → ∀ (i a : Nat), ds[i]? = some a → a = d + i * c.dilFactor) := by
      cases h : c.dil with
      | one d =>
        refine ⟨(List.range c.numTd).map (fun i => d + i * c.dilFactor), by rw [List.length_map, List.length_range], fun l h => (by cases h), fun d' h' i a ha => ?_⟩
        cases h'
        rw [List.getElem?_map] at ha
        cases hr : (List.range c.numTd)[i]? with
        | none => rw [hr] at ha; cases ha
        | some j =>
          rw [hr] at ha
          obtain ⟨hj, hj'⟩ := List.getElem?_eq_some_iff.1 hr
          rw [List.getElem_range] at hj'
          cases ha
          rw [hj']
      | many l =>
        refine ⟨l, hd l h, fun l' h' => (by cases h'; rfl), fun k' h' => (by cases h')⟩
    obtain ⟨ks, a1, a2, a3⟩ := k1
    obtain ⟨ds, b1, b2, b3⟩ := d1
    exact ⟨ks, ds, a1, b1, a2, a3, b2, b3⟩
  have fwd : tdnnV1 c P z ≠ none → 1 ≤ c.numTd ∧ 1 ≤ c.numFc ∧ (∀ l, c.kernel = .many l → l.length = c.numTd) ∧ (∀ l, c.dil = .many l → l.length = c.numTd) ∧
      ∀ l, c.fcUnits = .many l → l.length + 1 = c.numFc := by
    intro h
    unfold tdnnV1 at h
    by_cases h1 : 1 ≤ c.numTd
    · by_cases h2 : 1 ≤ c.numFc
      · simp only [guard, if_pos h1, if_pos h2] at h
        refine ⟨h1, h2, fun l hl => ?_, fun l hl => ?_, fun l hl => ?_⟩
        · by_contra hn
          apply h
          rw [hl]
          have : kernels c.numTd (.many l) = none := if_neg (fun e => hn e.symm)
          rw [this]; rfl
        · by_contra hn
          apply h
          rw [hl]
          have : dilations c.numTd c.dilFactor (.many l) = none := if_neg (fun e => hn e.symm)
          rw [this]
          cases kernels c.numTd c.kernel <;> rfl
        · by_contra hn
          apply h
          rw [hl]
          have : fcAssert (c.numFc - 1) (.many l) = none := if_neg (by omega)
          rw [this]
          cases kernels c.numTd c.kernel
          · rfl
          · cases dilations c.numTd c.dilFactor c.dil <;> rfl
      · exact absurd (by simp [guard, h1, h2]) h
    · exact absurd (by simp [guard, h1]) h
  refine ⟨⟨fwd, ?_⟩, ?_⟩
  · rintro ⟨h1, h2, h3, h4, h5⟩
    obtain ⟨ks, ds, h⟩ := sz h3 h4
    rw [tdnnV1_eq c P z ks ds h h1 h2 (fun l hl => by have := h5 l hl; omega)]
    exact Option.some_ne_none _
  · intro net ctx hn
    obtain ⟨h1, h2, h3, h4, h5⟩ := fwd (by rw [hn]; exact Option.some_ne_none _)
    obtain ⟨ks, ds, h⟩ := sz h3 h4
    refine ⟨ks, ds, h, ?_⟩
    rw [tdnnV1_eq c P z ks ds h h1 h2 (fun l hl => by have := h5 l hl; omega)] at hn
    rw [← context_eq]
    exact (congrArg Prod.snd (Option.some.inj hn)).symm

/-- lengths through a chain of layers -/
theorem tdLayer_length (c : TdCfg) (ds ks : List Nat) (P : Params F) (z : F) (h : List F) (i : Nat) :
    (tdLayer c ds ks P z h i).length = if c.pad = .valid then h.length - ds.getD i 1 * (ks.getD i 1 - 1) else h.length := by
  unfold tdLayer bnIf
  rw [List.length_map, conv1d_length]
  have : (if c.useBn = true then List.map (P.bnTd i) h else h).length = h.length := by
    split
    · rw [List.length_map]
    · rfl
  rw [this]
  cases c.pad <;> simp only [front, back, reduceCtorEq, if_true, if_false] <;> omega

theorem fcs_length (c : TdCfg) (P : Params F) (is : List Nat) (h : List F) : (is.foldl (fcLayer c P) h).length = h.length := by
  induction is generalizing h with
  | nil => rfl
  | cons i is ih =>
    rw [List.foldl_cons, ih]
    unfold fcLayer bnIf
    rw [List.length_map, List.length_map]
    split
    · rw [List.length_map]
    · rfl

theorem chain_length (c : TdCfg) (ds ks : List Nat) (P : Params F) (z : F) (is : List Nat) (h : List F) :
    (is.foldl (tdLayer c ds ks P z) h).length = if c.pad = .valid then h.length - (is.map (fun i => ds.getD i 1 * (ks.getD i 1 - 1))).sum else h.length := by
  induction is generalizing h with
  | nil => simp
  | cons i is ih =>
    rw [List.foldl_cons, ih, tdLayer_length, List.map_cons, List.sum_cons]
    split <;> omega

/-- **C166 (length).** With `same` or `causal` padding the output has as many frames as the input; with `valid` padding it has
the sum of the `d (k - 1)` fewer, which is twice the reported context when that sum is even. -/
theorem C166_length (c : TdCfg) (P : Params F) (z : F) (ks ds : List Nat) (h : Sizes c.numTd c.kernel c.dil c.dilFactor ks ds)
    (net : List F → List F) (ctx : Nat) (hnet : tdnnV1 c P z = some (net, ctx)) (x : List F) :
    (c.pad ≠ .valid → (net x).length = x.length) ∧
    (c.pad = .valid → (net x).length = x.length - (List.zipWith (fun d k => d * (k - 1)) ds ks).sum) ∧
    (c.pad = .valid → Even (List.zipWith (fun d k => d * (k - 1)) ds ks).sum → (net x).length = x.length - 2 * ctx) := by
  obtain ⟨h1, h2, h3, h4, h5⟩ := (C166_arguments c P z).1.1 (by rw [hnet]; exact Option.some_ne_none _)
  rw [tdnnV1_eq c P z ks ds h h1 h2 (fun l hl => by have := h5 l hl; omega)] at hnet
  have e := Option.some.inj hnet
  have e1 := congrArg Prod.fst e
  have e2 := congrArg Prod.snd e
  dsimp only at e1 e2
  have len : (net x).length = if c.pad = .valid then x.length - (List.zipWith (fun d k => d * (k - 1)) ds ks).sum else x.length := by
    rw [← e1]
    dsimp only
    have hs := sum_layers (fun t => t) c.numTd ks ds h.klen h.dlen
    rw [List.length_map, ← hs, ← chain_length c ds ks P z (List.range c.numTd) x]
    unfold bnIf
    split
    · rw [List.length_map, fcs_length]
    · rw [fcs_length]
  refine ⟨fun hp => by rw [len, if_neg hp], fun hp => by rw [len, if_pos hp], fun hp hev => ?_⟩
  rw [len, if_pos hp, ← e2, context_eq]
  obtain ⟨a, ha⟩ := hev
  rw [ha]
  omega

/-- weights whose convolutions pass the last frame of the window on (`last`), or the first -/
def pickP (last : Bool) : Params Nat where
  bnTd := fun _ a => a
  conv := fun _ w => if last then w.getLastD 0 else w.headD 0
  act := fun a => a
  bnFc := fun _ a => a
  fc := fun _ a => a
  bnOut := fun a => a
  out := fun a => a

theorem bnIf_id (c : TdCfg) (f : F → F) (hf : ∀ a, f a = a) (h : List F) : bnIf c f h = h := by
  have : f = id := funext hf
  unfold bnIf
  rw [this, List.map_id]
  split <;> rfl

theorem pick_last (k : Nat) (hk : 1 ≤ k) (g : Nat → Nat) : ((List.range k).map g).getLastD 0 = g (k - 1) := by
  obtain ⟨n, rfl⟩ : ∃ n, k = n + 1 := ⟨k - 1, by omega⟩
  rw [List.range_succ, List.map_append, List.map_cons, List.map_nil, List.getLastD_concat]
  rfl

theorem pick_head (k : Nat) (hk : 1 ≤ k) (g : Nat → Nat) : ((List.range k).map g).headD 0 = g 0 := by
  obtain ⟨n, rfl⟩ : ∃ n, k = n + 1 := ⟨k - 1, by omega⟩
  rw [List.range_succ_eq_map]
  rfl

theorem tdLayer_pick (last : Bool) (c : TdCfg) (hp : c.pad = .same) (ds ks : List Nat) (hk : ∀ k ∈ ks, 1 ≤ k) (h : List Nat) (i : Nat) (t : Int)
    (h0 : 0 ≤ t) (h1 : t < h.length) :
    At (tdLayer c ds ks (pickP last) 0 h i) t =
      some ((At h (t + (if last then ((ds.getD i 1 * (ks.getD i 1 - 1) - ds.getD i 1 * (ks.getD i 1 - 1) / 2 : Nat) : Int)
        else -((ds.getD i 1 * (ks.getD i 1 - 1) / 2 : Nat) : Int)))).getD 0) := by
  have hk' := ks_getD ks hk i
  unfold tdLayer
  rw [bnIf_id c ((pickP last).bnTd i) (fun _ => rfl)]
  have : (pickP last).act = id := rfl
  rw [this, List.map_id, hp]
  have hcast : ((ds.getD i 1 * (ks.getD i 1 - 1) : Nat) : Int) = ds.getD i 1 * (ks.getD i 1 - 1) := by push_cast [Nat.cast_sub hk']; rfl
  rw [conv1d_at .same _ _ _ _ _ _ h0 (by rw [← hcast]; simp only [front, back]; omega) hk']
  congr 1
  cases last
  · show List.headD _ 0 = _
    rw [pick_head _ hk']
    simp only [front, Nat.zero_mul, Nat.cast_zero, add_zero, Bool.false_eq_true, if_false]
    rw [sub_eq_add_neg]
  · show List.getLastD _ 0 = _
    rw [pick_last _ hk']
    simp only [front, if_true]
    congr 2
    rw [Nat.mul_comm (ks.getD i 1 - 1)]
    omega

theorem chain_last (c : TdCfg) (hp : c.pad = .same) (ds ks : List Nat) (hk : ∀ k ∈ ks, 1 ≤ k) (is : List Nat) (h : List Nat) (t : Int) (h0 : 0 ≤ t) :
    (At (is.foldl (tdLayer c ds ks (pickP true) 0) h) t).getD 0 =
      (At h (t + (is.map (fun i => ds.getD i 1 * (ks.getD i 1 - 1) - ds.getD i 1 * (ks.getD i 1 - 1) / 2)).sum)).getD 0 := by
  induction is generalizing h with
  | nil => simp
  | cons i is ih =>
    rw [List.foldl_cons, ih, List.map_cons, List.sum_cons]
    generalize hS : (is.map (fun i => ds.getD i 1 * (ks.getD i 1 - 1) - ds.getD i 1 * (ks.getD i 1 - 1) / 2)).sum = S
    have hlen : (tdLayer c ds ks (pickP true) 0 h i).length = h.length := by rw [tdLayer_length, hp, if_neg (by decide)]
    by_cases hb : t + S < h.length
    · rw [tdLayer_pick true c hp ds ks hk h i _ (by omega) hb]
      rw [if_pos rfl, Option.getD_some]
      congr 2
      omega
    · rw [(At_none _ _).2 (by rw [hlen]; omega), (At_none _ _).2 (by omega)]

theorem chain_head (c : TdCfg) (hp : c.pad = .same) (ds ks : List Nat) (hk : ∀ k ∈ ks, 1 ≤ k) (is : List Nat) (h : List Nat) (t : Int) (h0 : t < h.length) :
    (At (is.foldl (tdLayer c ds ks (pickP false) 0) h) t).getD 0 =
      (At h (t - (is.map (fun i => ds.getD i 1 * (ks.getD i 1 - 1) / 2)).sum)).getD 0 := by
  induction is generalizing h with
  | nil => simp
  | cons i is ih =>
    have hlen : (tdLayer c ds ks (pickP false) 0 h i).length = h.length := by rw [tdLayer_length, hp, if_neg (by decide)]
    rw [List.foldl_cons, ih _ (by rw [hlen]; exact h0), List.map_cons, List.sum_cons]
    generalize hS : (is.map (fun i => ds.getD i 1 * (ks.getD i 1 - 1) / 2)).sum = S
    by_cases hb : 0 ≤ t - S
    · rw [tdLayer_pick false c hp ds ks hk h i _ hb (by omega)]
      rw [if_neg (by decide), Option.getD_some]
      congr 2
      omega
    · rw [(At_none _ _).2 (by omega), (At_none _ _).2 (by omega)]

theorem pick_net (last : Bool) (c : TdCfg) (is : List Nat) (h : List Nat) :
    (bnIf c (pickP last).bnOut (is.foldl (fcLayer c (pickP last)) h)).map (pickP last).out = h := by
  have h1 : ∀ a : List Nat, a.map (pickP last).out = a := List.map_id
  rw [h1, bnIf_id c (pickP last).bnOut (fun _ => rfl)]
  induction is generalizing h with
  | nil => rfl
  | cons i is ih =>
    rw [List.foldl_cons, ih]
    unfold fcLayer
    rw [bnIf_id c ((pickP last).bnFc i) (fun _ => rfl)]
    have h2 : ∀ a : List Nat, (a.map ((pickP last).fc i)).map (pickP last).act = a := fun a => by
      show (a.map id).map id = a
      rw [List.map_id, List.map_id]
    exact h2 h

theorem At_zeros (n : Nat) (i : Int) : At (List.replicate n 0) i = if 0 ≤ i ∧ i < n then some 0 else none := by
  unfold At
  split
  · rw [List.getElem?_replicate]
    congr 1
    apply propext
    omega
  · rw [if_neg (by omega)]

/-- **C166 (no smaller window).** With `same` padding, a window that is right for all weights reaches at least so far to both
sides. -/
theorem C166_tight (c : TdCfg) (ks ds : List Nat) (h : Sizes c.numTd c.kernel c.dil c.dilFactor ks ds) (hk : ∀ k ∈ ks, 1 ≤ k) (hp : c.pad = .same)
    (h1 : 1 ≤ c.numTd) (h2 : 1 ≤ c.numFc) (h3 : ∀ l, c.fcUnits = .many l → l.length + 1 = c.numFc) (l r : Nat)
    (hw : ∀ (P : Params Nat) (net : List Nat → List Nat) (ctx : Nat), tdnnV1 c P 0 = some (net, ctx) → Window net l r) :
    (List.zipWith (fun d k => d * (k - 1) / 2) ds ks).sum ≤ l ∧ (List.zipWith (fun d k => (d * (k - 1) + 1) / 2) ds ks).sum ≤ r := by
  have eq := fun (last : Bool) => tdnnV1_eq c (pickP last) 0 ks ds h h1 h2 (fun l hl => by have := h3 l hl; omega)
  constructor
  · have hs := sum_layers (fun t => t / 2) c.numTd ks ds h.klen h.dlen
    rw [← hs]
    generalize hS : ((List.range c.numTd).map (fun i => ds.getD i 1 * (ks.getD i 1 - 1) / 2)).sum = S
    by_contra hlt
    have w := hw (pickP false) _ _ (eq false) (1 :: List.replicate S 0) (List.replicate (S + 1) 0) S S (by
      intro δ d1 d2
      rw [At_zeros]
      unfold At
      by_cases hb : (S : Int) + δ < S + 1
      · rw [if_pos (by omega), if_pos (by push_cast; omega)]
        obtain ⟨m, hm⟩ : ∃ m, ((S : Int) + δ).toNat = m + 1 := ⟨((S : Int) + δ).toNat - 1, by omega⟩
        rw [hm, List.getElem?_cons_succ, List.getElem?_replicate_of_lt (by omega)]
      · rw [if_pos (by omega), if_neg (by push_cast; omega)]
        rw [List.getElem?_eq_none_iff]
        simp only [List.length_cons, List.length_replicate]
        omega)
    simp only [pick_net] at w
    have e1 := congrArg (fun o => Option.getD o 0) w
    rw [chain_head c hp ds ks hk _ _ _ (by simp), chain_head c hp ds ks hk _ _ _ (by simp), hS, sub_self, At_zeros] at e1
    rw [if_pos (by omega)] at e1
    exact absurd e1 (by simp [At])
  · have e0 : List.zipWith (fun d k => (d * (k - 1) + 1) / 2) ds ks = List.zipWith (fun d k => d * (k - 1) - d * (k - 1) / 2) ds ks := by
      congr 1
      funext d k
      omega
    have hs := sum_layers (fun t => t - t / 2) c.numTd ks ds h.klen h.dlen
    rw [e0, ← hs]
    generalize hS : ((List.range c.numTd).map (fun i => ds.getD i 1 * (ks.getD i 1 - 1) - ds.getD i 1 * (ks.getD i 1 - 1) / 2)).sum = S
    by_contra hlt
    have w := hw (pickP true) _ _ (eq true) (List.replicate S 0 ++ [1]) (List.replicate (S + 1) 0) 0 0 (by
      intro δ d1 d2
      rw [At_zeros]
      unfold At
      by_cases hb : 0 ≤ (0 : Int) + δ
      · rw [if_pos hb, if_pos (by push_cast; omega), List.getElem?_append_left (by rw [List.length_replicate]; omega),
          List.getElem?_replicate_of_lt (by omega)]
      · rw [if_neg hb, if_neg (by omega)])
    simp only [pick_net] at w
    have e1 := congrArg (fun o => Option.getD o 0) w
    rw [chain_last c hp ds ks hk _ _ _ (by omega), chain_last c hp ds ks hk _ _ _ (by omega), hS, zero_add, At_zeros] at e1
    rw [if_pos (by omega)] at e1
    unfold At at e1
    rw [if_pos (by omega), Int.toNat_natCast, List.getElem?_append_right (by simp)] at e1
    simp at e1

theorem sums_half (ds ks : List Nat) (hl : ks.length = ds.length) :
    (List.zipWith (fun d k => d * (k - 1)) ds ks).sum =
        (List.zipWith (fun d k => d * (k - 1) / 2) ds ks).sum + (List.zipWith (fun d k => (d * (k - 1) + 1) / 2) ds ks).sum ∧
      (List.zipWith (fun d k => d * (k - 1) / 2) ds ks).sum ≤ (List.zipWith (fun d k => (d * (k - 1) + 1) / 2) ds ks).sum ∧
      ((List.zipWith (fun d k => (d * (k - 1) + 1) / 2) ds ks).sum ≤ (List.zipWith (fun d k => d * (k - 1) / 2) ds ks).sum ↔
        ∀ (i d k : Nat), ds[i]? = some d → ks[i]? = some k → Even (d * (k - 1))) := by
  induction ds generalizing ks with
  | nil =>
    refine ⟨by simp, by simp, ?_⟩
    simp
  | cons d ds ih =>
    cases ks with
    | nil => simp at hl
    | cons k ks =>
      obtain ⟨i1, i2, i3⟩ := ih ks (by simpa using hl)
      simp only [List.zipWith_cons_cons, List.sum_cons]
      refine ⟨by omega, by omega, ?_⟩
      constructor
      · intro h i d' k' h1 h2
        have hev : d * (k - 1) % 2 = 0 := by omega
        have ht := i3.1 (by omega)
        cases i with
        | zero =>
          simp only [List.getElem?_cons_zero, Option.some.injEq] at h1 h2
          subst h1 h2
          exact Nat.even_iff.2 hev
        | succ i =>
          rw [List.getElem?_cons_succ] at h1 h2
          exact ht i d' k' h1 h2
      · intro h
        have hev := Nat.even_iff.1 (h 0 d k rfl rfl)
        have := i3.2 (fun i d' k' h1 h2 => h (i + 1) d' k' (by rwa [List.getElem?_cons_succ]) (by rwa [List.getElem?_cons_succ]))
        omega

/-- **C166 (the reported context).** With `same` padding: the reported number of context frames covers everything that the
output frames depend on, for all weights, exactly when `d (k - 1)` is even in every layer (odd kernels, or even dilation). -/
theorem C166_context_iff (c : TdCfg) (ks ds : List Nat) (h : Sizes c.numTd c.kernel c.dil c.dilFactor ks ds) (hk : ∀ k ∈ ks, 1 ≤ k) (hp : c.pad = .same)
    (h1 : 1 ≤ c.numTd) (h2 : 1 ≤ c.numFc) (h3 : ∀ l, c.fcUnits = .many l → l.length + 1 = c.numFc) :
    (∀ (F : Type) (P : Params F) (z : F) (net : List F → List F) (ctx : Nat), tdnnV1 c P z = some (net, ctx) → Window net ctx ctx) ↔
      ∀ (i d k : Nat), ds[i]? = some d → ks[i]? = some k → Even (d * (k - 1)) := by
  obtain ⟨s1, s2, s3⟩ := sums_half ds ks (by rw [h.klen, h.dlen])
  have hctx : ∀ (F : Type) (P : Params F) (z : F) (net : List F → List F) (ctx : Nat), tdnnV1 c P z = some (net, ctx) →
      ctx = (List.zipWith (fun d k => d * (k - 1)) ds ks).sum / 2 := by
    intro F P z net ctx hn
    rw [tdnnV1_eq c P z ks ds h h1 h2 (fun l hl => by have := h3 l hl; omega)] at hn
    rw [← context_eq]
    exact (congrArg Prod.snd (Option.some.inj hn)).symm
  rw [← s3]
  constructor
  · intro hw
    have := (C166_tight c ks ds h hk hp h1 h2 h3 _ _ (fun P net ctx hn => (hctx Nat P 0 net ctx hn) ▸ hw Nat P 0 net ctx hn)).2
    omega
  · intro hle F P z net ctx hn
    have := hctx F P z net ctx hn
    exact window_mono ((C166_window c P z ks ds h hk net ctx hn).1 hp) (by omega) (by omega)

/-- **C166 (a part of the sequence).** The frames that the network computes from a part of a sequence are those it computes
from the whole sequence, except for `context` frames next to a cut. -/
theorem C166_cut_partial (c : TdCfg) (P : Params F) (z : F) (ks ds : List Nat) (h : Sizes c.numTd c.kernel c.dil c.dilFactor ks ds) (hk : ∀ k ∈ ks, 1 ≤ k)
    (hp : c.pad = .same) (hev : ∀ (i d k : Nat), ds[i]? = some d → ks[i]? = some k → Even (d * (k - 1)))
    (net : List F → List F) (ctx : Nat) (hnet : tdnnV1 c P z = some (net, ctx)) (x : List F) (s n t : Nat) (hsn : s + n ≤ x.length) (ht : t < n)
    (hl : s = 0 ∨ ctx ≤ t) (hr : s + n = x.length ∨ t + ctx < n) :
    (net ((x.drop s).take n))[t]? = (net x)[s + t]? ∧ (net x)[s + t]? ≠ none := by
  obtain ⟨h1, h2, h3, h4, h5⟩ := (C166_arguments c P z).1.1 (by rw [hnet]; exact Option.some_ne_none _)
  have hw := (C166_context_iff c ks ds h hk hp h1 h2 h5).2 hev F P z net ctx hnet
  have := hw ((x.drop s).take n) x t (s + t : Nat) (by
    intro δ d1 d2
    unfold At
    by_cases ha : 0 ≤ (t : Int) + δ
    · rw [if_pos ha, if_pos (by push_cast; omega)]
      have e : (((s + t : Nat) : Int) + δ).toNat = s + ((t : Int) + δ).toNat := by push_cast; omega
      rw [e]
      by_cases hb : ((t : Int) + δ).toNat < n
      · rw [List.getElem?_take_of_lt hb, List.getElem?_drop]
      · rw [List.getElem?_eq_none_iff.2 (by rw [List.length_take, List.length_drop]; omega), List.getElem?_eq_none_iff.2 (by omega)]
    · rw [if_neg ha, if_neg (by push_cast; omega)])
  unfold At at this
  rw [if_pos (by omega), if_pos (by omega), Int.toNat_natCast, Int.toNat_natCast] at this
  refine ⟨this, ?_⟩
  rw [Ne, List.getElem?_eq_none_iff, (C166_length c P z ks ds h net ctx hnet x).1 (by rw [hp]; decide)]
  omega

/-! ### The transposed network -/

theorem getLastD_getD (l : List Nat) (n : Nat) (h : l.length = n + 1) : l.getLastD 1 = l.getD n 1 := by
  rw [List.getLastD_eq_getLast?, List.getLast?_eq_getElem?, List.getD_eq_getElem?_getD, h]
  rfl

theorem tdnnT_some (c : TdCfg) (P : Params F) (z : F) (net : List F → List F) (ctx : Nat) (hnet : tdnnT c P z = some (net, ctx)) :
    ∃ ks ds, kernels c.numTd c.kernel = some ks ∧ dilationsT c.numTd c.dilFactor c.dil = some ds ∧ 1 ≤ c.numTd ∧ ctx = context ds ks ∧
      net = fun x => (conv1d c.pad (ds.getLastD 1) (ks.getLastD 1) z (P.conv (c.numTd - 1))
        (bnIf c P.bnOut ((List.range (c.numTd - 1)).foldl (tdLayer c ds ks P z) ((List.range c.numFc).foldl (fcLayer c P) x)))).map P.out := by
  unfold tdnnT at hnet
  by_cases h1 : 1 ≤ c.numTd
  · by_cases h2 : 1 ≤ c.numFc
    · simp only [guard, if_pos h1, if_pos h2] at hnet
      cases hk : kernels c.numTd c.kernel with
      | none => rw [hk] at hnet; cases hnet
      | some ks =>
        cases hd : dilationsT c.numTd c.dilFactor c.dil with
        | none => rw [hk, hd] at hnet; cases hnet
        | some ds =>
          cases hf : fcAssert c.numFc c.fcUnits with
          | none => rw [hk, hd, hf] at hnet; cases hnet
          | some u =>
            rw [hk, hd, hf] at hnet
            have e := Option.some.inj hnet
            exact ⟨ks, ds, rfl, rfl, h1, (congrArg Prod.snd e).symm, (congrArg Prod.fst e).symm⟩
    · simp [guard, h1, h2] at hnet
  · simp [guard, h1] at hnet

/-- **C166 (transposed network).** `TDNNV1Transpose` with `same` padding and lists of kernel sizes and dilation rates: the same
window, and the same context is reported. -/
theorem C166_transpose (c : TdCfg) (P : Params F) (z : F) (ks ds : List Nat) (hks : c.kernel = .many ks) (hds : c.dil = .many ds) (hk : ∀ k ∈ ks, 1 ≤ k)
    (hp : c.pad = .same) (net : List F → List F) (ctx : Nat) (hnet : tdnnT c P z = some (net, ctx)) :
    Window net (List.zipWith (fun d k => d * (k - 1) / 2) ds ks).sum (List.zipWith (fun d k => (d * (k - 1) + 1) / 2) ds ks).sum ∧
      ctx = (List.zipWith (fun d k => d * (k - 1)) ds ks).sum / 2 ∧
      ((∀ (i d k : Nat), ds[i]? = some d → ks[i]? = some k → Even (d * (k - 1))) → Window net ctx ctx) := by
  obtain ⟨ks', ds', e1, e2, h1, e3, e4⟩ := tdnnT_some c P z net ctx hnet
  rw [hks] at e1
  rw [hds] at e2
  have hkl : c.numTd = ks.length := by
    by_contra hn
    rw [show kernels c.numTd (.many ks) = none from if_neg hn] at e1
    cases e1
  have hdl : c.numTd = ds.length := by
    by_contra hn
    rw [show dilationsT c.numTd c.dilFactor (.many ds) = none from if_neg hn] at e2
    cases e2
  rw [show kernels c.numTd (.many ks) = some ks from if_pos hkl] at e1
  rw [show dilationsT c.numTd c.dilFactor (.many ds) = some ds from if_pos hdl] at e2
  cases e1
  cases e2
  obtain ⟨n, hn⟩ : ∃ n, c.numTd = n + 1 := ⟨c.numTd - 1, by omega⟩
  have w1 := window_fold (tdLayer c ds ks P z) _ _ (List.range n) (fun i _ => window_tdLayer c ds ks P z i (ks_getD ks hk i))
  have w2 := window_conv c.pad (ds.getLastD 1) (ks.getLastD 1) z (P.conv (c.numTd - 1)) (by rw [getLastD_getD ks n (by omega)]; exact ks_getD ks hk n)
  have w := window_comp (window_comp (window_comp (window_comp (window_fcs c P c.numFc) w1) (window_bnIf c P.bnOut)) w2) (window_map P.out)
  rw [getLastD_getD ks n (by omega), getLastD_getD ds n (by omega)] at w
  have s1 := sum_layers (fun t => t / 2) (n + 1) ks ds (by omega) (by omega)
  have s2 := sum_layers (fun t => (t + 1) / 2) (n + 1) ks ds (by omega) (by omega)
  rw [List.range_succ, List.map_append, List.sum_append, List.map_cons, List.map_nil, List.sum_cons, List.sum_nil] at s1 s2
  have s3 : ((List.range n).map (fun i => ds.getD i 1 * (ks.getD i 1 - 1) - front c.pad (ds.getD i 1 * (ks.getD i 1 - 1)))).sum =
      ((List.range n).map (fun i => (ds.getD i 1 * (ks.getD i 1 - 1) + 1) / 2)).sum := by
    congr 1
    apply List.map_congr_left
    intro i _
    rw [hp]
    simp only [front]
    omega
  rw [s3] at w
  have s4 : ((List.range n).map (fun i => front c.pad (ds.getD i 1 * (ks.getD i 1 - 1)))).sum =
      ((List.range n).map (fun i => ds.getD i 1 * (ks.getD i 1 - 1) / 2)).sum := by
    rw [hp]
    rfl
  rw [s4] at w
  have W : Window net (List.zipWith (fun d k => d * (k - 1) / 2) ds ks).sum (List.zipWith (fun d k => (d * (k - 1) + 1) / 2) ds ks).sum := by
    rw [e4, ← s1, ← s2]
    have hn1 : c.numTd - 1 = n := by omega
    rw [hn1] at w ⊢
    rw [getLastD_getD ks n (by omega), getLastD_getD ds n (by omega)]
    refine window_mono w ?_ ?_
    · rw [hp]; simp only [front]; omega
    · rw [hp]; simp only [front]; omega
  rw [context_eq] at e3
  refine ⟨W, e3, fun hev => ?_⟩
  obtain ⟨q1, q2, q3⟩ := sums_half ds ks (by omega)
  have := q3.2 hev
  exact window_mono W (by omega) (by omega)

theorem zip_one (k : Nat) (f : Nat → Nat) (is : List Nat) :
    (List.zipWith (fun d k => d * (k - 1)) (is.map f) (is.map (fun _ => k))).sum = (is.map (fun i => f i * (k - 1))).sum := by
  induction is with
  | nil => rfl
  | cons i is ih => rw [List.map_cons, List.map_cons, List.zipWith_cons_cons, List.sum_cons, ih, List.map_cons, List.sum_cons]

theorem sum_range_rev (n a d m : Nat) : ((List.range n).map (fun i => (a * (n - i) + d) * (2 * m))).sum =
    ((List.range n).map (fun i => (a * i + d) * (2 * m))).sum + n * (a * (2 * m)) := by
  have h1 : ((List.range n).map (fun i => (a * (n - i) + d) * (2 * m))).sum = ((List.range n).map (fun i => (a * (i + 1) + d) * (2 * m))).sum := by
    have : (List.range n).map (fun i => (a * (n - i) + d) * (2 * m)) = ((List.range n).map (fun i => (a * (i + 1) + d) * (2 * m))).reverse := by
      apply List.ext_getElem
      · simp
      · intro i g1 g2
        rw [List.length_map, List.length_range] at g1
        rw [List.getElem_reverse]
        simp only [List.getElem_map, List.getElem_range, List.length_map, List.length_range]
        have : n - i = n - 1 - i + 1 := by omega
        rw [this]
    rw [this, List.sum_reverse]
  rw [h1]
  clear h1
  induction n with
  | zero => simp
  | succ n ih =>
    rw [List.range_succ, List.map_append, List.sum_append, List.map_append, List.sum_append, ih]
    simp only [List.map_cons, List.map_nil, List.sum_cons, List.sum_nil]
    ring

/-- **C166 (the transposed network is not the mirror image).** With one odd kernel size and one dilation rate for all layers,
`TDNNV1Transpose` reports more context than `TDNNV1` with the same arguments: the dilation rates count down from
`num_td_layers`, not from `num_td_layers - 1`. -/
theorem C166_transpose_wider (c : TdCfg) (P : Params F) (z : F) (m d : Nat) (hks : c.kernel = .one (2 * m + 1)) (hds : c.dil = .one d)
    (net netT : List F → List F) (ctx ctxT : Nat) (hnet : tdnnV1 c P z = some (net, ctx)) (hnetT : tdnnT c P z = some (netT, ctxT)) :
    ctxT = ctx + c.dilFactor * c.numTd * m := by
  obtain ⟨ks', ds', e1, e2, h1, e3, -⟩ := tdnnT_some c P z netT ctxT hnetT
  obtain ⟨ks, ds, hs, hc⟩ := (C166_arguments c P z).2 net ctx hnet
  have k1 := sizes_kernels hs
  have k2 := sizes_dilations hs
  rw [hks] at e1 k1
  rw [hds] at e2 k2
  have k1' := Option.some.inj (show some ((List.range c.numTd).map (fun _ => 2 * m + 1)) = some ks from k1)
  have k2' := Option.some.inj (show some ((List.range c.numTd).map (fun i => c.dilFactor * i + d)) = some ds from k2)
  have e1' := Option.some.inj (show some ((List.range c.numTd).map (fun _ => 2 * m + 1)) = some ks' from e1)
  have e2' := Option.some.inj (show some ((List.range c.numTd).map (fun i => c.dilFactor * (c.numTd - i) + d)) = some ds' from e2)
  rw [e3, context_eq, hc, ← k1', ← k2', ← e1', ← e2', zip_one, zip_one]
  simp only [Nat.add_sub_cancel]
  rw [sum_range_rev]
  have : c.numTd * (c.dilFactor * (2 * m)) = (c.dilFactor * c.numTd * m) * 2 := by ring
  rw [this, Nat.add_mul_div_right _ _ (by decide)]

/-! ### The residual network -/

theorem At_zipWith (f : F → F → F) (a b : List F) (t : Int) : At (List.zipWith f a b) t = (At a t).bind (fun u => (At b t).map (f u)) := by
  unfold At
  split
  · rw [List.getElem?_zipWith]
    cases a[t.toNat]? <;> cases b[t.toNat]? <;> rfl
  · rfl

theorem window_zip (f : F → F → F) {g g' : List F → List F} {l r : Nat} (hg : Window g l r) (hg' : Window g' 0 0) :
    Window (fun x => List.zipWith f (g x) (g' x)) l r := by
  intro x x' t t' h
  rw [At_zipWith, At_zipWith, hg x x' t t' h, hg' x x' t t' (fun δ d1 d2 => h δ (by omega) (by omega))]

theorem bnIf_length (c : TdCfg) (f : F → F) (h : List F) : (bnIf c f h).length = h.length := by
  unfold bnIf
  split
  · rw [List.length_map]
  · rfl

theorem foldlM_fold (step : List F → Nat → Option (List F)) (g : List F → Nat → List F) (is : List Nat) (h : ∀ i x, step x i = some (g x i)) (x : List F) :
    is.foldlM step x = some (is.foldl g x) := by
  induction is generalizing x with
  | nil => rfl
  | cons i is ih =>
    rw [List.foldlM_cons, h i x]
    exact ih _

/-- what a time-delay block computes, with `same` padding -/
def resTdG (c : TdCfg) (ds ks : List Nat) (P : ResParams F) (z : F) (h : List F) (i : Nat) : List F :=
  List.zipWith P.add ((conv1d .same (ds.getD (2 * i + 1) 1) (ks.getD (2 * i + 1) 1) z (P.conv (2 * i + 1)) (bnIf c (P.bnTd i) h)).map P.act)
    (if i = 0 then (bnIf c (P.bnTd i) h).map P.resTd else bnIf c (P.bnTd i) h)

theorem resTdBlock_same (c : TdCfg) (hp : c.pad = .same) (ds ks : List Nat) (P : ResParams F) (z : F) (h : List F) (i : Nat) :
    resTdBlock c ds ks P z h i = some (resTdG c ds ks P z h i) := by
  unfold resTdBlock resTdG addSeq
  rw [hp]
  dsimp only
  refine if_pos ?_
  rw [List.length_map, conv1d_length, bnIf_length]
  have : (if i = 0 then (bnIf c (P.bnTd i) h).map P.resTd else bnIf c (P.bnTd i) h).length = h.length := by
    split
    · rw [List.length_map, bnIf_length]
    · rw [bnIf_length]
  rw [this]
  simp only [front, back]
  omega

/-- what a dense block computes -/
def resFcG (c : TdCfg) (proj : Bool) (P : ResParams F) (h : List F) (i : Nat) : List F :=
  List.zipWith P.add (((bnIf c (P.bnFc i) h).map (P.fc2 i)).map P.act)
    (if i = 0 ∧ proj then (bnIf c (P.bnFc i) h).map P.resFc else bnIf c (P.bnFc i) h)

theorem resFcBlock_eq (c : TdCfg) (proj : Bool) (P : ResParams F) (h : List F) (i : Nat) : resFcBlock c proj P h i = some (resFcG c proj P h i) := by
  unfold resFcBlock resFcG addSeq
  dsimp only
  refine if_pos ?_
  rw [List.length_map, List.length_map]
  split
  · rw [List.length_map]
  · rfl

theorem window_resTdG (c : TdCfg) (ds ks : List Nat) (P : ResParams F) (z : F) (i : Nat) (hk : 1 ≤ ks.getD (2 * i + 1) 1) :
    Window (fun h => resTdG c ds ks P z h i) (ds.getD (2 * i + 1) 1 * (ks.getD (2 * i + 1) 1 - 1) / 2)
      ((ds.getD (2 * i + 1) 1 * (ks.getD (2 * i + 1) 1 - 1) + 1) / 2) := by
  have w1 := window_comp (window_comp (window_bnIf c (P.bnTd i)) (window_conv .same (ds.getD (2 * i + 1) 1) (ks.getD (2 * i + 1) 1) z (P.conv (2 * i + 1)) hk))
    (window_map P.act)
  have w2 : Window (fun h => if i = 0 then (bnIf c (P.bnTd i) h).map P.resTd else bnIf c (P.bnTd i) h) 0 0 := by
    by_cases hi : i = 0
    · simp only [if_pos hi]
      exact window_comp (window_bnIf c (P.bnTd i)) (window_map P.resTd)
    · simp only [if_neg hi]
      exact window_bnIf c (P.bnTd i)
  refine window_mono (window_zip P.add w1 w2) ?_ ?_
  · simp only [front]; omega
  · simp only [front]; omega

theorem window_resFcG (c : TdCfg) (proj : Bool) (P : ResParams F) (i : Nat) : Window (fun h => resFcG c proj P h i) 0 0 := by
  have w1 := window_comp (window_comp (window_bnIf c (P.bnFc i)) (window_map (P.fc2 i))) (window_map P.act)
  have w2 : Window (fun h => if i = 0 ∧ proj then (bnIf c (P.bnFc i) h).map P.resFc else bnIf c (P.bnFc i) h) 0 0 := by
    by_cases hi : i = 0 ∧ proj
    · simp only [if_pos hi]
      exact window_comp (window_bnIf c (P.bnFc i)) (window_map P.resFc)
    · simp only [if_neg hi]
      exact window_bnIf c (P.bnFc i)
  exact window_zip P.add w1 w2

theorem resTdnn_eq (c : TdCfg) (proj : Bool) (P : ResParams F) (z : F) (ks ds : List Nat) (h : Sizes (2 * c.numTd) c.kernel c.dil c.dilFactor ks ds)
    (net : List F → Option (List F)) (ctx : Nat) (hnet : resTdnn c proj P z = some (net, ctx)) :
    (net = fun x => do
      let h ← (List.range c.numTd).foldlM (resTdBlock c ds ks P z) x
      let h ← (List.range c.numFc).foldlM (resFcBlock c proj P) h
      some ((bnIf c P.bnOut h).map P.out)) ∧ ctx = (List.zipWith (fun d k => d * (k - 1)) ds ks).sum / 2 ∧ 1 ≤ c.numTd := by
  rw [Nat.mul_comm] at h
  unfold resTdnn at hnet
  rw [sizes_kernels h, sizes_dilations h] at hnet
  by_cases h1 : 1 ≤ c.numTd
  · simp only [guard, if_pos h1] at hnet
    have e := Option.some.inj hnet
    rw [← context_eq]
    exact ⟨(congrArg Prod.fst e).symm, (congrArg Prod.snd e).symm, h1⟩
  · simp [guard, h1] at hnet

/-- sum over the odd layers is part of the sum over all layers -/
theorem sum_odd (n : Nat) (ks ds : List Nat) (hk : ks.length = 2 * n) (hd : ds.length = 2 * n) :
    ((List.range n).map (fun i => ds.getD (2 * i) 1 * (ks.getD (2 * i) 1 - 1))).sum +
      ((List.range n).map (fun i => ds.getD (2 * i + 1) 1 * (ks.getD (2 * i + 1) 1 - 1))).sum = (List.zipWith (fun d k => d * (k - 1)) ds ks).sum := by
  have := sum_layers (fun t => t) (2 * n) ks ds hk hd
  rw [← this]
  have : ∀ g : Nat → Nat, ((List.range n).map (fun i => g (2 * i))).sum + ((List.range n).map (fun i => g (2 * i + 1))).sum = ((List.range (2 * n)).map g).sum := by
    intro g
    clear hk hd this
    induction n with
    | zero => simp
    | succ n ih =>
      have e : 2 * (n + 1) = 2 * n + 1 + 1 := by ring
      rw [e, List.range_succ, List.range_succ (n := 2 * n + 1), List.range_succ (n := 2 * n)]
      simp only [List.map_append, List.sum_append, List.map_cons, List.map_nil, List.sum_cons, List.sum_nil, ← ih]
      ring
  exact this (fun i => ds.getD i 1 * (ks.getD i 1 - 1))

/-- **C166 (residual network).** `ResTDNNV1` with `same` padding and odd kernels: every sequence gives a result, and an output
frame depends on the input only through the second convolution of every block: the true context is half the sum of the
`d (k - 1)` of the layers `1, 3, 5, …`. The reported context adds those of the layers `0, 2, 4, …`, so it is enough, and too
large as soon as one of these has a kernel of more than one frame. -/
theorem C166_residual (c : TdCfg) (proj : Bool) (P : ResParams F) (z : F) (ks ds : List Nat) (h : Sizes (2 * c.numTd) c.kernel c.dil c.dilFactor ks ds)
    (hk : ∀ k ∈ ks, 1 ≤ k) (hp : c.pad = .same) (hev : ∀ (i d k : Nat), ds[i]? = some d → ks[i]? = some k → Even (d * (k - 1)))
    (net : List F → Option (List F)) (ctx : Nat) (hnet : resTdnn c proj P z = some (net, ctx)) :
    ∃ (g : List F → List F) (true_ctx : Nat), (∀ x, net x = some (g x)) ∧ Window g true_ctx true_ctx ∧
      2 * true_ctx = ((List.range c.numTd).map (fun i => ds.getD (2 * i + 1) 1 * (ks.getD (2 * i + 1) 1 - 1))).sum ∧
      2 * ctx = 2 * true_ctx + ((List.range c.numTd).map (fun i => ds.getD (2 * i) 1 * (ks.getD (2 * i) 1 - 1))).sum ∧ Window g ctx ctx := by
  obtain ⟨e1, e2, e3⟩ := resTdnn_eq c proj P z ks ds h net ctx hnet
  have evs : ∀ i, i < c.numTd → Even (ds.getD (2 * i + 1) 1 * (ks.getD (2 * i + 1) 1 - 1)) ∧ Even (ds.getD (2 * i) 1 * (ks.getD (2 * i) 1 - 1)) := by
    intro i hi
    have hkl := h.klen
    have hdl := h.dlen
    constructor
    · apply hev (2 * i + 1)
      · rw [List.getD_eq_getElem _ _ (by omega)]; exact List.getElem?_eq_getElem _
      · rw [List.getD_eq_getElem _ _ (by omega)]; exact List.getElem?_eq_getElem _
    · apply hev (2 * i)
      · rw [List.getD_eq_getElem _ _ (by omega)]; exact List.getElem?_eq_getElem _
      · rw [List.getD_eq_getElem _ _ (by omega)]; exact List.getElem?_eq_getElem _
  have dbl : ∀ (f : Nat → Nat) (n : Nat), (∀ i, i < n → Even (f i)) → 2 * ((List.range n).map (fun i => f i / 2)).sum = ((List.range n).map f).sum ∧
      ((List.range n).map (fun i => (f i + 1) / 2)).sum = ((List.range n).map (fun i => f i / 2)).sum := by
    intro f n
    induction n with
    | zero => intro _; simp
    | succ n ih =>
      intro hh
      obtain ⟨i1, i2⟩ := ih (fun i hi => hh i (by omega))
      have := Nat.even_iff.1 (hh n (by omega))
      simp only [List.range_succ, List.map_append, List.sum_append, List.map_cons, List.map_nil, List.sum_cons, List.sum_nil]
      omega
  obtain ⟨d1, d2⟩ := dbl (fun i => ds.getD (2 * i + 1) 1 * (ks.getD (2 * i + 1) 1 - 1)) c.numTd (fun i hi => (evs i hi).1)
  obtain ⟨d3, -⟩ := dbl (fun i => ds.getD (2 * i) 1 * (ks.getD (2 * i) 1 - 1)) c.numTd (fun i hi => (evs i hi).2)
  have so := sum_odd c.numTd ks ds h.klen h.dlen
  have w1 := window_fold (resTdG c ds ks P z) _ _ (List.range c.numTd) (fun i _ => window_resTdG c ds ks P z i (ks_getD ks hk _))
  have w2 := window_fold (resFcG c proj P) (fun _ => 0) (fun _ => 0) (List.range c.numFc) (fun i _ => window_resFcG c proj P i)
  rw [sum_zero_map] at w2
  have w := window_comp (window_comp (window_comp w1 w2) (window_bnIf c P.bnOut)) (window_map P.out)
  rw [d2] at w
  refine ⟨_, _, ?_, w, ?_, ?_, window_mono w ?_ ?_⟩
  · intro x
    rw [e1]
    dsimp only
    rw [foldlM_fold _ _ _ (fun i x => resTdBlock_same c hp ds ks P z x i) x]
    show Option.bind (List.foldlM (resFcBlock c proj P) _ _) _ = _
    rw [foldlM_fold _ _ _ (fun i x => resFcBlock_eq c proj P x i)]
    rfl
  · simp only [Nat.add_zero]
    exact d1
  · simp only [Nat.add_zero]
    omega
  · simp only [Nat.add_zero]
    omega
  · simp only [Nat.add_zero]
    omega

/-- **C166 (layers without effect).** Two `ResTDNNV1` networks whose weights differ only in the first convolution of the
time-delay blocks and in the first layer of the dense blocks compute the same. -/
theorem C166_residual_dead (c : TdCfg) (proj : Bool) (P P' : ResParams F) (z : F)
    (h1 : P'.bnTd = P.bnTd) (h2 : ∀ i, P'.conv (2 * i + 1) = P.conv (2 * i + 1)) (h3 : P'.act = P.act) (h4 : P'.bnFc = P.bnFc) (h5 : P'.fc2 = P.fc2)
    (h6 : P'.bnOut = P.bnOut) (h7 : P'.out = P.out) (h8 : P'.resTd = P.resTd) (h9 : P'.resFc = P.resFc) (h10 : P'.add = P.add) :
    resTdnn c proj P' z = resTdnn c proj P z := by
  have a : ∀ ds ks, resTdBlock c ds ks P' z = resTdBlock c ds ks P z := by
    intro ds ks
    funext h i
    unfold resTdBlock
    dsimp only
    rw [h1, h2, h3, h8, h10]
  have b : resFcBlock c proj P' = resFcBlock c proj P := by
    funext h i
    unfold resFcBlock
    rw [h4, h5, h3, h9, h10]
  unfold resTdnn
  rw [b, h6, h7]
  simp only [a]

theorem addSeq_none (f : F → F → F) (a b : List F) (h : a.length ≠ b.length) (h1 : a.length ≠ 1) (h2 : b.length ≠ 1) : addSeq f a b = none := by
  unfold addSeq
  rw [if_neg h]
  split
  · exact absurd rfl h1
  · exact absurd rfl h2
  · rfl

/-- **C166 (residual network, valid padding).** With `valid` padding and a kernel of more than one frame in layer 1, `ResTDNNV1`
fails on every sequence of two or more frames, except where the convolution leaves one frame, which is repeated: the two
summands have different lengths. -/
theorem C166_residual_valid (c : TdCfg) (proj : Bool) (P : ResParams F) (z : F) (ks ds : List Nat) (h : Sizes (2 * c.numTd) c.kernel c.dil c.dilFactor ks ds)
    (hp : c.pad = .valid) (net : List F → Option (List F)) (ctx : Nat) (hnet : resTdnn c proj P z = some (net, ctx)) (d k : Nat)
    (hd : ds[1]? = some d) (hk : ks[1]? = some k) (hd1 : 1 ≤ d) (hk1 : 2 ≤ k) (x : List F) (hx : 2 ≤ x.length) (hx1 : x.length ≠ d * (k - 1) + 1) : net x = none := by
  obtain ⟨e1, e2, e3⟩ := resTdnn_eq c proj P z ks ds h net ctx hnet
  have hb : resTdBlock c ds ks P z x 0 = none := by
    have : 1 * 1 ≤ d * (k - 1) := Nat.mul_le_mul hd1 (by omega)
    apply addSeq_none
    · rw [List.length_map, conv1d_length, bnIf_length, hp]
      simp only [front, back, Nat.mul_zero, Nat.zero_add]
      rw [List.getD_eq_getElem?_getD, List.getD_eq_getElem?_getD, hd, hk]
      simp only [Option.getD_some]
      rw [if_pos trivial, List.length_map, bnIf_length]
      omega
    · rw [List.length_map, conv1d_length, bnIf_length, hp]
      simp only [front, back, Nat.mul_zero, Nat.zero_add]
      rw [List.getD_eq_getElem?_getD, List.getD_eq_getElem?_getD, hd, hk]
      simp only [Option.getD_some]
      omega
    · rw [if_pos rfl, List.length_map, bnIf_length]
      omega
  rw [e1]
  dsimp only
  obtain ⟨n, hn⟩ : ∃ n, c.numTd = n + 1 := ⟨c.numTd - 1, by omega⟩
  rw [hn, List.range_succ_eq_map, List.foldlM_cons, hb]
  rfl

/-! ### The network with an embedding as second input -/

theorem tdnnEmb_eq (c : TdCfg) (toAll : Bool) (P : Params F) (cat : F → F → F) (z : F) (ks ds : List Nat)
    (h : Sizes c.numTd c.kernel c.dil c.dilFactor ks ds) (net : List F → List F → Option (List F)) (ctx : Nat)
    (hnet : tdnnEmb c toAll P cat z = some (net, ctx)) :
    ctx = (List.zipWith (fun d k => d * (k - 1)) ds ks).sum / 2 ∧ 1 ≤ c.numFc ∧
    ∀ x e, net x e = ((List.range (c.numFc - 1)).foldlM (embFc c toAll P cat e) ((List.range c.numTd).foldl (tdLayer c ds ks P z) x)).bind
      (fun h => (if c.numFc = 1 then merge cat h e else some h).bind (fun h => some ((bnIf c P.bnOut h).map P.out))) := by
  unfold tdnnEmb at hnet
  rw [sizes_kernels h, sizes_dilations h] at hnet
  by_cases h1 : 1 ≤ c.numTd
  · by_cases h2 : 1 ≤ c.numFc
    · cases hf : fcAssert c.numFc c.fcUnits with
      | none => rw [hf] at hnet; simp [guard, h1, h2] at hnet
      | some u =>
        rw [hf] at hnet
        simp only [guard, if_pos h1, if_pos h2] at hnet
        have e := Option.some.inj hnet
        rw [← context_eq]
        refine ⟨(congrArg Prod.snd e).symm, h2, fun x e' => ?_⟩
        have e1 := congrArg Prod.fst e
        rw [show net = _ from e1.symm]
        show Option.bind _ _ = Option.bind _ _
        congr 1
        funext w
        by_cases h4 : c.numFc = 1
        · rw [if_pos h4, if_pos h4]; rfl
        · rw [if_neg h4, if_neg h4]; rfl
    · simp [guard, h1, h2] at hnet
  · simp [guard, h1] at hnet

/-- frames `t` and `t'` of two pairs of sequences of equal lengths -/
structure Same2 (h e h' e' : List F) (t t' : Int) : Prop where
  len : h.length = e.length
  len' : h'.length = e'.length
  at1 : At h t = At h' t'
  at2 : At e t = At e' t'

theorem same2_map (f : List F → List F) (hf : Window f 0 0) (hl : ∀ x, (f x).length = x.length) {h e h' e' : List F} {t t' : Int} (s : Same2 h e h' e' t t') :
    Same2 (f h) e (f h') e' t t' := by
  refine ⟨by rw [hl, s.len], by rw [hl, s.len'], hf _ _ _ _ (fun δ d1 d2 => ?_), s.at2⟩
  have : δ = 0 := by omega
  subst this
  rw [add_zero, add_zero]
  exact s.at1

theorem same2_merge (cat : F → F → F) {h e h' e' : List F} {t t' : Int} (s : Same2 h e h' e' t t') :
    ∃ y y', merge cat h e = some y ∧ merge cat h' e' = some y' ∧ Same2 y e y' e' t t' := by
  refine ⟨_, _, if_pos s.len, if_pos s.len', ?_, ?_, ?_, s.at2⟩
  · rw [List.length_zipWith, s.len, Nat.min_self]
  · rw [List.length_zipWith, s.len', Nat.min_self]
  · rw [At_zipWith, At_zipWith, s.at1, s.at2]

theorem fcLayer_length (c : TdCfg) (P : Params F) (h : List F) (i : Nat) : (fcLayer c P h i).length = h.length := by
  unfold fcLayer
  rw [List.length_map, List.length_map, bnIf_length]

theorem same2_embFc (c : TdCfg) (toAll : Bool) (P : Params F) (cat : F → F → F) {h e h' e' : List F} {t t' : Int} (i : Nat) (s : Same2 h e h' e' t t') :
    ∃ y y', embFc c toAll P cat e h i = some y ∧ embFc c toAll P cat e' h' i = some y' ∧ Same2 y e y' e' t t' := by
  unfold embFc
  by_cases hc : i = 0 ∨ toAll = true
  · rw [if_pos hc, if_pos hc]
    obtain ⟨y, y', m1, m2, m3⟩ := same2_merge cat s
    rw [m1, m2]
    exact ⟨_, _, rfl, rfl, same2_map (fun x => fcLayer c P x i) (window_fcLayer c P i) (fun x => fcLayer_length c P x i) m3⟩
  · rw [if_neg hc, if_neg hc]
    exact ⟨_, _, rfl, rfl, same2_map (fun x => fcLayer c P x i) (window_fcLayer c P i) (fun x => fcLayer_length c P x i) s⟩

theorem same2_fold (c : TdCfg) (toAll : Bool) (P : Params F) (cat : F → F → F) (is : List Nat) {h e h' e' : List F} {t t' : Int} (s : Same2 h e h' e' t t') :
    ∃ y y', is.foldlM (embFc c toAll P cat e) h = some y ∧ is.foldlM (embFc c toAll P cat e') h' = some y' ∧ Same2 y e y' e' t t' := by
  induction is generalizing h h' with
  | nil => exact ⟨h, h', rfl, rfl, s⟩
  | cons i is ih =>
    obtain ⟨y, y', m1, m2, m3⟩ := same2_embFc c toAll P cat i s
    rw [List.foldlM_cons, List.foldlM_cons, m1, m2]
    exact ih m3

theorem emb_core (c : TdCfg) (toAll : Bool) (P : Params F) (cat : F → F → F) (z : F) (ks ds : List Nat)
    (h : Sizes c.numTd c.kernel c.dil c.dilFactor ks ds) (net : List F → List F → Option (List F)) (ctx : Nat)
    (hnet : tdnnEmb c toAll P cat z = some (net, ctx)) (x e x' e' : List F) (t t' : Int)
    (s : Same2 ((List.range c.numTd).foldl (tdLayer c ds ks P z) x) e ((List.range c.numTd).foldl (tdLayer c ds ks P z) x') e' t t') :
    ∃ y y', net x e = some y ∧ net x' e' = some y' ∧ Same2 y e y' e' t t' := by
  obtain ⟨-, e2, e3⟩ := tdnnEmb_eq c toAll P cat z ks ds h net ctx hnet
  obtain ⟨y, y', m1, m2, m3⟩ := same2_fold c toAll P cat (List.range (c.numFc - 1)) s
  rw [e3, e3, m1, m2]
  have last : ∀ {w w' : List F}, Same2 w e w' e' t t' →
      Same2 ((bnIf c P.bnOut w).map P.out) e ((bnIf c P.bnOut w').map P.out) e' t t' := fun q =>
    same2_map (fun x => (bnIf c P.bnOut x).map P.out) (window_comp (window_bnIf c P.bnOut) (window_map P.out)) (fun x => by rw [List.length_map, bnIf_length]) q
  by_cases h1 : c.numFc = 1
  · simp only [Option.bind_some, if_pos h1]
    obtain ⟨u, u', n1, n2, n3⟩ := same2_merge cat m3
    rw [n1, n2]
    exact ⟨_, _, rfl, rfl, last n3⟩
  · simp only [Option.bind_some, if_neg h1]
    exact ⟨_, _, rfl, rfl, last m3⟩

/-- **C166 (embedding input).** `TDNNV1WithEmbedInputV1` with `same` padding and odd kernels: for a sequence and as many frames
of the embedding input the network gives as many frames, and output frame `t` is determined by the input frames `t - context`
to `t + context` and by frame `t` of the embedding input. -/
theorem C166_embed (c : TdCfg) (toAll : Bool) (P : Params F) (cat : F → F → F) (z : F) (ks ds : List Nat)
    (h : Sizes c.numTd c.kernel c.dil c.dilFactor ks ds) (hk : ∀ k ∈ ks, 1 ≤ k) (hp : c.pad = .same)
    (hev : ∀ (i d k : Nat), ds[i]? = some d → ks[i]? = some k → Even (d * (k - 1)))
    (net : List F → List F → Option (List F)) (ctx : Nat) (hnet : tdnnEmb c toAll P cat z = some (net, ctx)) (x e : List F) (hxe : x.length = e.length) :
    ∃ y, net x e = some y ∧ y.length = x.length ∧ ∀ (x' e' : List F) (t t' : Int), x'.length = e'.length →
      (∀ δ : Int, -(ctx : Int) ≤ δ → δ ≤ ctx → At x (t + δ) = At x' (t' + δ)) → At e t = At e' t' →
      ∃ y', net x' e' = some y' ∧ At y t = At y' t' := by
  obtain ⟨e1, -, -⟩ := tdnnEmb_eq c toAll P cat z ks ds h net ctx hnet
  obtain ⟨q1, q2, q3⟩ := sums_half ds ks (by rw [h.klen, h.dlen])
  have q := q3.2 hev
  have hw : Window (fun x => (List.range c.numTd).foldl (tdLayer c ds ks P z) x) ctx ctx := by
    have w := window_chain c ds ks P z c.numTd hk h.klen h.dlen
    have f2 : List.zipWith (fun d k => d * (k - 1) - front c.pad (d * (k - 1))) ds ks = List.zipWith (fun d k => (d * (k - 1) + 1) / 2) ds ks := by
      congr 1
      funext d k
      rw [hp]
      simp only [front]
      omega
    have f1 : List.zipWith (fun d k => front c.pad (d * (k - 1))) ds ks = List.zipWith (fun d k => d * (k - 1) / 2) ds ks := by
      rw [hp]
      rfl
    rw [f1, f2] at w
    exact window_mono w (by omega) (by omega)
  have hl : ∀ x : List F, ((List.range c.numTd).foldl (tdLayer c ds ks P z) x).length = x.length := by
    intro x
    rw [chain_length, hp, if_neg (by decide)]
  obtain ⟨y, _, m1, _, m3⟩ := emb_core c toAll P cat z ks ds h net ctx hnet x e x e 0 0 ⟨by rw [hl, hxe], by rw [hl, hxe], rfl, rfl⟩
  refine ⟨y, m1, by rw [m3.len, hxe], fun x' e' t t' hx' ha he => ?_⟩
  obtain ⟨y1, y', n1, n2, n3⟩ := emb_core c toAll P cat z ks ds h net ctx hnet x e x' e' t t' ⟨by rw [hl, hxe], by rw [hl, hx'], hw x x' t t' ha, he⟩
  rw [m1] at n1
  cases n1
  exact ⟨y', n2, n3.at1⟩

/-- **C166 (embedding input, valid padding).** With `valid` padding and a kernel of more than one frame the network rejects
every non-empty sequence with as many frames of the embedding input. -/
theorem C166_embed_valid (c : TdCfg) (toAll : Bool) (P : Params F) (cat : F → F → F) (z : F) (ks ds : List Nat)
    (h : Sizes c.numTd c.kernel c.dil c.dilFactor ks ds) (hp : c.pad = .valid) (hpos : 0 < (List.zipWith (fun d k => d * (k - 1)) ds ks).sum)
    (net : List F → List F → Option (List F)) (ctx : Nat) (hnet : tdnnEmb c toAll P cat z = some (net, ctx)) (x e : List F) (hx : x ≠ [])
    (hxe : x.length = e.length) : net x e = none := by
  obtain ⟨-, e2, e3⟩ := tdnnEmb_eq c toAll P cat z ks ds h net ctx hnet
  have hm : merge cat ((List.range c.numTd).foldl (tdLayer c ds ks P z) x) e = none := by
    refine if_neg ?_
    rw [chain_length, if_pos hp, sum_layers (fun t => t) c.numTd ks ds h.klen h.dlen]
    have := List.length_pos_iff.2 hx
    omega
  rw [e3]
  by_cases h1 : c.numFc = 1
  · rw [h1]
    simp only [Nat.sub_self, List.range_zero, List.foldlM_nil, if_true]
    show Option.bind (merge cat _ e) _ = none
    rw [hm]
    rfl
  · obtain ⟨n, hn⟩ : ∃ n, c.numFc - 1 = n + 1 := ⟨c.numFc - 2, by omega⟩
    rw [hn, List.range_succ_eq_map, List.foldlM_cons]
    have : embFc c toAll P cat e ((List.range c.numTd).foldl (tdLayer c ds ks P z) x) 0 = none := by
      unfold embFc
      rw [if_pos (Or.inl rfl), hm]
      rfl
    rw [this]
    rfl

/-! ### Concrete networks -/

/-- five time-delay layers as in an x-vector network -/
def xvecCfg : TdCfg := { numTd := 5, numFc := 2, kernel := .many [5, 3, 3, 1, 1], dil := .many [1, 2, 3, 1, 1], dilFactor := 1, fcUnits := .one 512, pad := .same, useBn := true }

theorem xvec_sizes : Sizes xvecCfg.numTd xvecCfg.kernel xvecCfg.dil xvecCfg.dilFactor [5, 3, 3, 1, 1] [1, 2, 3, 1, 1] :=
  ⟨rfl, rfl, fun l h => (by cases h; rfl), fun k h => (by cases h), fun l h => (by cases h; rfl), fun k h => (by cases h)⟩

/-- its context is 7 frames, and this is right for all weights -/
example : ∀ (F : Type) (P : Params F) (z : F) (net : List F → List F) (ctx : Nat), tdnnV1 xvecCfg P z = some (net, ctx) → ctx = 7 ∧ Window net 7 7 := by
  intro F P z net ctx hn
  have h1 := tdnnV1_eq xvecCfg P z _ _ xvec_sizes (by decide) (by decide) (fun l h => by cases h)
  rw [h1] at hn
  have hc : ctx = 7 := by
    have : ctx = context [1, 2, 3, 1, 1] [5, 3, 3, 1, 1] := (congrArg Prod.snd (Option.some.inj hn)).symm
    rw [this, context_eq]
    decide
  refine ⟨hc, ?_⟩
  have hw := (C166_context_iff xvecCfg _ _ xvec_sizes (by decide) rfl (by decide) (by decide) (fun l h => by cases h)).2 (by
    intro i d k hd hk
    match i with
    | 0 => cases hd; cases hk; decide
    | 1 => cases hd; cases hk; decide
    | 2 => cases hd; cases hk; decide
    | 3 => cases hd; cases hk; decide
    | 4 => cases hd; cases hk; decide
    | n + 5 => cases hd) F P z net ctx (h1.trans hn)
  rw [hc] at hw
  exact hw

/-- two layers with one kernel size and one dilation rate -/
def evenCfg : TdCfg := { numTd := 2, numFc := 1, kernel := .one 2, dil := .one 1, dilFactor := 1, fcUnits := .many [], pad := .same, useBn := false }

theorem even_sizes : Sizes evenCfg.numTd evenCfg.kernel evenCfg.dil evenCfg.dilFactor [2, 2] [1, 2] :=
  ⟨rfl, rfl, fun l h => (by cases h), fun k h => (by cases h; decide), fun l h => (by cases h), fun d h i a ha => (by
    cases h
    match i with
    | 0 => cases ha; rfl
    | 1 => cases ha; rfl
    | n + 2 => cases ha)⟩

/-- **C166 (even kernels: false).** The claim fails for kernels of two frames: some weights make an output frame depend on input
outside of the reported context. -/
theorem C166_even_kernel_wrong : ¬ ∀ (c : TdCfg) (F : Type) (P : Params F) (z : F) (net : List F → List F) (ctx : Nat), c.pad = .same →
    tdnnV1 c P z = some (net, ctx) → Window net ctx ctx := by
  intro h
  have := (C166_context_iff evenCfg _ _ even_sizes (by decide) rfl (by decide) (by decide) (fun l h => by cases h; rfl)).1
    (fun F P z net ctx hn => h evenCfg F P z net ctx rfl hn) 0 1 2 rfl rfl
  exact absurd this (by decide)

/-- the frames of the example -/
example : ∃ net, tdnnV1 evenCfg (pickP true) 0 = some (net, 1) ∧ net [10, 20, 30, 40] = [30, 40, 0, 0] :=
  ⟨_, tdnnV1_eq evenCfg (pickP true) 0 _ _ even_sizes (by decide) (by decide) (fun l h => by cases h; rfl) |>.trans
    (by rw [context_eq]; rfl), by decide +kernel⟩

/-- every frame of the result is the sum of the frames of the window -/
def sumP : Params Nat where
  bnTd := fun _ a => a
  conv := fun _ w => w.sum
  act := fun a => a
  bnFc := fun _ a => a
  fc := fun _ a => a
  bnOut := fun a => a
  out := fun a => a

/-- one layer of kernel 3 -/
def oneCfg : TdCfg := { numTd := 1, numFc := 1, kernel := .one 3, dil := .one 1, dilFactor := 1, fcUnits := .one 8, pad := .same, useBn := true }

theorem one_sizes : Sizes oneCfg.numTd oneCfg.kernel oneCfg.dil oneCfg.dilFactor [3] [1] :=
  ⟨rfl, rfl, fun l h => (by cases h), fun k h => (by cases h; decide), fun l h => (by cases h), fun d h i a ha => (by
    cases h
    match i with
    | 0 => cases ha; rfl
    | n + 1 => cases ha)⟩

/-- **C166 (chunked extraction: false).** A TDNN with `same` padding and context 1, applied by `SeqEmbed.predict_embed` in chunks
of six frames: the frames given to the pooling network are not those of the whole sequence, neither with the reported context
as left and right context of the chunks nor with a left context of zero. -/
theorem C166_chunks_wrong : ∃ net, tdnnV1 oneCfg sumP 0 = some (net, 1) ∧
    (∃ y mask, predictFrames ⟨6, 6, 1, 1, 1, 1, 1⟩ net 0 0 [1, 2, 3, 4, 5, 6, 7, 8, 9, 10] = some (y, mask) ∧
      mask[5]? = some true ∧ y[5]? ≠ (net [1, 2, 3, 4, 5, 6, 7, 8, 9, 10])[5]?) ∧
    ∃ y mask, predictFrames ⟨6, 6, 1, 0, 1, 0, 1⟩ net 0 0 [1, 2, 3, 4, 5, 6, 7, 8, 9, 10] = some (y, mask) ∧
      mask[5]? = some true ∧ y[5]? ≠ (net [1, 2, 3, 4, 5, 6, 7, 8, 9, 10])[5]? := by
  refine ⟨_, (tdnnV1_eq oneCfg sumP 0 _ _ one_sizes (by decide) (by decide) (fun l h => by cases h)).trans (by rw [context_eq]; rfl), ?_, ?_⟩
  · exact ⟨[3, 6, 9, 12, 15, 11, 18, 21, 24, 27], [false, true, true, true, true, true, true, true, true, false], by decide +kernel, by decide, by decide +kernel⟩
  · exact ⟨[3, 6, 9, 12, 15, 13, 21, 24, 27, 25], [true, true, true, true, true, true, true, true, true, false], by decide +kernel, by decide, by decide +kernel⟩

/-- weights of the residual example -/
def resSumP : ResParams Nat := { sumP with resTd := fun a => a, resFc := fun a => a, fc2 := fun _ a => a, add := fun a b => a + b }

/-- one block of two layers of kernel 3 -/
def resCfg : TdCfg := { numTd := 1, numFc := 0, kernel := .one 3, dil := .one 1, dilFactor := 1, fcUnits := .one 8, pad := .same, useBn := true }

theorem res_sizes : Sizes (2 * resCfg.numTd) resCfg.kernel resCfg.dil resCfg.dilFactor [3, 3] [1, 2] :=
  ⟨rfl, rfl, fun l h => (by cases h), fun k h => (by cases h; decide), fun l h => (by cases h), fun d h i a ha => (by
    cases h
    match i with
    | 0 => cases ha; rfl
    | 1 => cases ha; rfl
    | n + 2 => cases ha)⟩

/-- the residual network reports a context of 3, the output depends on frames up to 2 away -/
example : ∃ net, resTdnn resCfg true resSumP 0 = some (net, 3) ∧ net [1, 10, 100, 1000, 10000] = some [102, 1020, 10201, 2010, 20100] := by
  have h : ∃ net, resTdnn resCfg true resSumP 0 = some (net, context [1, 2] [3, 3]) ∧
    net [1, 10, 100, 1000, 10000] = some [102, 1020, 10201, 2010, 20100] := ⟨_, rfl, by decide +kernel⟩
  rwa [context_eq] at h

/-- with an embedding input -/
example : ∃ net, tdnnEmb oneCfg false sumP (fun a b => a * 100 + b) 0 = some (net, 1) ∧ net [1, 2, 3] [7, 8, 9] = some [307, 608, 509] ∧
    net [1, 2, 3] [7, 8] = none := by
  have h : ∃ net, tdnnEmb oneCfg false sumP (fun a b => a * 100 + b) 0 = some (net, context [1] [3]) ∧ net [1, 2, 3] [7, 8, 9] = some [307, 608, 509] ∧
    net [1, 2, 3] [7, 8] = none := ⟨_, rfl, by decide +kernel, by decide +kernel⟩
  rwa [context_eq] at h

/-- a transposed network -/
example : ∃ net, tdnnT oneCfg sumP 0 = some (net, 2) ∧ net [1, 10, 100, 1000] = [101, 1010, 101, 1010] := by
  have h : ∃ net, tdnnT oneCfg sumP 0 = some (net, context [2] [3]) ∧ net [1, 10, 100, 1000] = [101, 1010, 101, 1010] := ⟨_, rfl, by decide +kernel⟩
  rwa [context_eq] at h

/-- valid and causal padding -/
example : ∃ net, tdnnV1 { oneCfg with pad := .valid } sumP 0 = some (net, context [1] [3]) ∧ net [1, 10, 100, 1000] = [111, 1110] := ⟨_, rfl, by decide +kernel⟩
example : ∃ net, tdnnV1 { oneCfg with pad := .causal } sumP 0 = some (net, context [1] [3]) ∧ net [1, 10, 100, 1000] = [1, 11, 111, 1110] := ⟨_, rfl, by decide +kernel⟩

end Hyp.Keras.Tdnn
