import Verif.Keras.TdConv2d
import Verif.Keras.TdnnProps

/-!
C171: the frames that `TDConv2DNetV1` and `TDVGGNetV1` see.
-/

namespace Hyp.Keras.TdConv
open Hyp.Keras.Tdnn

variable {F : Type}

/-! ### Lemmas -/

theorem bn_length (useBn : Bool) (f : F → F) (h : List F) : (if useBn then h.map f else h).length = h.length := by
  cases useBn <;> simp

theorem bn_window (useBn : Bool) (f : F → F) : Window (fun h : List F => if useBn then h.map f else h) 0 0 := by
  cases useBn
  · exact window_id
  · exact window_map _

theorem convLayer_length (useBn : Bool) (P : Params F) (z : F) (k d b i : Nat) (h : List F) : (convLayer useBn P z k d b i h).length = h.length := by
  unfold convLayer
  rw [List.length_map, conv1d_length, bn_length]
  simp only [front, back]
  omega

theorem convLayer_window (useBn : Bool) (P : Params F) (z : F) (k d b i : Nat) (hk : 1 ≤ k) :
    Window (convLayer useBn P z k d b i) (d * (k - 1) / 2) ((d * (k - 1) + 1) / 2) := by
  have := window_comp (window_comp (bn_window useBn (P.bn b i)) (window_conv .same d k z (P.conv b i) hk)) (window_map P.act)
  simp only [Nat.zero_add, Nat.add_zero, front] at this
  rw [show (d * (k - 1) + 1) / 2 = d * (k - 1) - d * (k - 1) / 2 by omega]
  exact this

theorem dense_eq (useBn : Bool) (P : Params F) (n : Nat) (h : List F) : dense useBn P n h = h.map (fun v =>
    P.out (if useBn then P.bnOut ((List.range (n - 1)).foldl (fun v i => P.act (P.fc i (if useBn then P.bnFc i v else v))) v)
      else (List.range (n - 1)).foldl (fun v i => P.act (P.fc i (if useBn then P.bnFc i v else v))) v)) := by
  unfold dense
  have hfold : ∀ (l : List Nat) (h : List F), l.foldl (fun h i => ((if useBn then h.map (P.bnFc i) else h).map (P.fc i)).map P.act) h =
      h.map (fun v => l.foldl (fun v i => P.act (P.fc i (if useBn then P.bnFc i v else v))) v) := by
    intro l
    induction l with
    | nil => intro h; simp
    | cons i l ih =>
      intro h
      rw [List.foldl_cons, ih]
      cases useBn <;> simp
  simp only [hfold]
  cases useBn <;> simp

theorem dense_length (useBn : Bool) (P : Params F) (n : Nat) (h : List F) : (dense useBn P n h).length = h.length := by
  rw [dense_eq, List.length_map]

theorem dense_window (useBn : Bool) (P : Params F) (n : Nat) : Window (dense useBn P n) 0 0 := by
  have : dense useBn P n = List.map _ := funext (dense_eq useBn P n)
  rw [this]
  exact window_map _

theorem fold_length (step : List F → Nat → List F) (hs : ∀ h i, (step h i).length = h.length) (l : List Nat) (h : List F) : (l.foldl step h).length = h.length := by
  induction l generalizing h with
  | nil => rfl
  | cons i l ih => rw [List.foldl_cons, ih, hs]

/-- `g` shifts a sequence to the front by `S`, with zeros from behind, and keeps its length -/
structure ShiftR (S : Nat) (g : List Nat → List Nat) : Prop where
  len : ∀ h, (g h).length = h.length
  get : ∀ h (t : Int), 0 ≤ t → (At (g h) t).getD 0 = (At h (t + S)).getD 0

/-- `g` shifts a sequence to the back by `S` -/
structure ShiftL (S : Nat) (g : List Nat → List Nat) : Prop where
  len : ∀ h, (g h).length = h.length
  get : ∀ h (t : Int), t < h.length → (At (g h) t).getD 0 = (At h (t - S)).getD 0

theorem ShiftR.comp {S S' : Nat} {g g' : List Nat → List Nat} (h : ShiftR S g) (h' : ShiftR S' g') : ShiftR (S + S') (fun x => g' (g x)) :=
  ⟨fun x => by rw [h'.len, h.len], fun x t ht => by
    rw [h'.get _ _ ht, h.get _ _ (by omega)]
    congr 2
    push_cast
    omega⟩

theorem ShiftL.comp {S S' : Nat} {g g' : List Nat → List Nat} (h : ShiftL S g) (h' : ShiftL S' g') : ShiftL (S + S') (fun x => g' (g x)) :=
  ⟨fun x => by rw [h'.len, h.len], fun x t ht => by
    rw [h'.get _ _ (by rw [h.len]; exact ht), h.get _ _ (by omega)]
    congr 2
    push_cast
    omega⟩

theorem ShiftR.fold {step : List Nat → Nat → List Nat} {s : Nat → Nat} (is : List Nat) (h : ∀ i ∈ is, ShiftR (s i) (fun x => step x i)) :
    ShiftR (is.map s).sum (fun x => is.foldl step x) := by
  induction is with
  | nil => exact ⟨fun _ => rfl, fun _ _ _ => by simp⟩
  | cons i is ih =>
    simp only [List.map_cons, List.sum_cons, List.foldl_cons]
    exact (h i List.mem_cons_self).comp (ih (fun j hj => h j (List.mem_cons_of_mem _ hj)))

theorem ShiftL.fold {step : List Nat → Nat → List Nat} {s : Nat → Nat} (is : List Nat) (h : ∀ i ∈ is, ShiftL (s i) (fun x => step x i)) :
    ShiftL (is.map s).sum (fun x => is.foldl step x) := by
  induction is with
  | nil => exact ⟨fun _ => rfl, fun _ _ _ => by simp⟩
  | cons i is ih =>
    simp only [List.map_cons, List.sum_cons, List.foldl_cons]
    exact (h i List.mem_cons_self).comp (ih (fun j hj => h j (List.mem_cons_of_mem _ hj)))

/-- a window of a shift reaches at least as far -/
theorem ShiftR.le {S : Nat} {g : List Nat → List Nat} (h : ShiftR S g) {l r : Nat} (w : Window g l r) : S ≤ r := by
  by_contra hlt
  have w := w (List.replicate S 0 ++ [1]) (List.replicate (S + 1) 0) 0 0 (by
    intro δ d1 d2
    rw [At_zeros]
    unfold At
    by_cases hb : 0 ≤ (0 : Int) + δ
    · rw [if_pos hb, if_pos (by push_cast; omega), List.getElem?_append_left (by rw [List.length_replicate]; omega),
        List.getElem?_replicate_of_lt (by omega)]
    · rw [if_neg hb, if_neg (by omega)])
  have e1 := congrArg (fun o => Option.getD o 0) w
  simp only [h.get _ _ le_rfl] at e1
  rw [zero_add, At_zeros] at e1
  rw [if_pos (by omega)] at e1
  unfold At at e1
  rw [if_pos (by omega), Int.toNat_natCast, List.getElem?_append_right (by simp)] at e1
  simp at e1

theorem ShiftL.le {S : Nat} {g : List Nat → List Nat} (h : ShiftL S g) {l r : Nat} (w : Window g l r) : S ≤ l := by
  by_contra hlt
  have w := w (1 :: List.replicate S 0) (List.replicate (S + 1) 0) S S (by
    intro δ d1 d2
    rw [At_zeros]
    unfold At
    by_cases hb : (S : Int) + δ < S + 1
    · rw [if_pos (by omega), if_pos (by push_cast; omega)]
      obtain ⟨m, hm⟩ : ∃ m, ((S : Int) + δ).toNat = m + 1 := ⟨((S : Int) + δ).toNat - 1, by omega⟩
      rw [hm, List.getElem?_cons_succ, List.getElem?_replicate_of_lt (by omega)]
    · rw [if_pos (by omega), if_neg (by push_cast; omega)]
      rw [List.getElem?_eq_none_iff]
      simp only [List.length_cons, List.length_replicate]
      omega)
  have e1 := congrArg (fun o => Option.getD o 0) w
  simp only [h.get _ _ (show (S : Int) < ((1 :: List.replicate S 0).length : Int) by simp), h.get _ _ (show (S : Int) < ((List.replicate (S + 1) 0).length : Int) by simp)] at e1
  rw [sub_self, At_zeros, if_pos (by omega)] at e1
  exact absurd e1 (by simp [At])

/-- weights that pass on the last frame of every window (`last`), or the first -/
def pick (last : Bool) : Params Nat where
  bn := fun _ _ a => a
  conv := fun _ _ w => if last then w.getLastD 0 else w.headD 0
  act := fun a => a
  pool := fun _ a => a
  bnFc := fun _ a => a
  fc := fun _ a => a
  bnOut := fun a => a
  out := fun a => a

theorem pick_layer (last useBn : Bool) (k d b i : Nat) (h : List Nat) :
    convLayer useBn (pick last) 0 k d b i h = tdLayer ⟨1, 1, .one 1, .one 1, 0, .one 1, .same, useBn⟩ [d] [k] (pickP last) 0 h 0 := by
  unfold convLayer tdLayer Tdnn.bnIf
  rfl

theorem pick_layerR (useBn : Bool) (k d b i : Nat) (hk : 1 ≤ k) : ShiftR ((d * (k - 1) + 1) / 2) (convLayer useBn (pick true) 0 k d b i) :=
  ⟨fun h => convLayer_length _ _ _ _ _ _ _ _, fun h t ht => by
    rw [pick_layer]
    have := chain_last ⟨1, 1, .one 1, .one 1, 0, .one 1, .same, useBn⟩ rfl [d] [k] (by simpa using hk) [0] h t ht
    rw [List.foldl_cons, List.foldl_nil] at this
    rw [this]
    simp only [List.map_cons, List.map_nil, List.sum_cons, List.sum_nil, Nat.add_zero, List.getD_cons_zero]
    congr 3
    omega⟩

theorem pick_layerL (useBn : Bool) (k d b i : Nat) (hk : 1 ≤ k) : ShiftL (d * (k - 1) / 2) (convLayer useBn (pick false) 0 k d b i) :=
  ⟨fun h => convLayer_length _ _ _ _ _ _ _ _, fun h t ht => by
    rw [pick_layer]
    have := chain_head ⟨1, 1, .one 1, .one 1, 0, .one 1, .same, useBn⟩ rfl [d] [k] (by simpa using hk) [0] h t ht
    rw [List.foldl_cons, List.foldl_nil] at this
    rw [this]
    simp only [List.map_cons, List.map_nil, List.sum_cons, List.sum_nil, Nat.add_zero, List.getD_cons_zero]⟩

theorem pick_dense (last useBn : Bool) (n : Nat) (h : List Nat) : dense useBn (pick last) n h = h := by
  rw [dense_eq]
  have : ∀ (l : List Nat) (v : Nat), l.foldl (fun v i => (pick last).act ((pick last).fc i (if useBn then (pick last).bnFc i v else v))) v = v := by
    intro l
    induction l with
    | nil => intro v; rfl
    | cons i l ih =>
      intro v
      rw [List.foldl_cons, ih]
      cases useBn <;> rfl
  refine (List.map_congr_left (g := id) fun v _ => ?_).trans (List.map_id _)
  rw [this]
  cases useBn <;> rfl

theorem pick_pool (last : Bool) (i : Nat) (h : List Nat) : h.map ((pick last).pool i) = h := List.map_id _

theorem conv_one (d : Nat) (z : F) (f : List F → F) (x : List F) : conv1d .same d 1 z f x = x.map (fun v => f [v]) := by
  unfold conv1d
  simp only [Nat.sub_self, Nat.mul_zero, Nat.zero_div, List.replicate_zero, List.nil_append, Nat.sub_zero, List.append_nil]
  apply List.ext_getElem
  · simp
  · intro i h1 h2
    simp at h1
    simp [List.getD_eq_getElem?_getD, List.getElem?_eq_getElem h1]

/-! ### TDConv2DNetV1 -/

/-- **C171 (TDConv2DNetV1: arguments).** The constructor raises unless there is a layer of each kind and every list has one entry
per convolution. -/
theorem C171_conv_arguments (c : ConvCfg) (P : Params F) (z : F) : tdConv2d c P z ≠ none ↔
    1 ≤ c.numConv ∧ 1 ≤ c.numFc ∧ (∀ l, c.kernel = .many l → l.length = c.numConv) ∧ (∀ l, c.filters = .many l → l.length = c.numConv) ∧
      (∀ l, c.dil = .many l → l.length = c.numConv) := by
  have hk : kernels c.numConv c.kernel ≠ none ↔ ∀ l, c.kernel = .many l → l.length = c.numConv := by
    unfold kernels
    cases c.kernel with
    | one k => simp
    | many l => simp [eq_comm]
  have hd : dilations c.numConv c.dilFactor c.dil ≠ none ↔ ∀ l, c.dil = .many l → l.length = c.numConv := by
    unfold dilations
    cases c.dil with
    | one k => simp
    | many l => simp [eq_comm]
  have hf := fcAssert_iff c.numConv c.filters
  rw [← hk, ← hd, ← hf]
  unfold tdConv2d
  by_cases h1 : 1 ≤ c.numConv <;> by_cases h2 : 1 ≤ c.numFc <;> simp [h1, h2, guard]
  cases kernels c.numConv c.kernel <;> cases fcAssert c.numConv c.filters <;> cases dilations c.numConv c.dilFactor c.dil <;> simp

theorem conv_eq (c : ConvCfg) (P : Params F) (z : F) (ks ds : List Nat) (h : Sizes c.numConv c.kernel c.dil c.dilFactor ks ds) (net : List F → List F)
    (hnet : tdConv2d c P z = some net) : net = fun x => dense c.useBn P c.numFc ((List.range c.numConv).foldl (convStep c ks ds P z) x) := by
  unfold tdConv2d at hnet
  rw [sizes_kernels h, sizes_dilations h] at hnet
  by_cases h1 : 1 ≤ c.numConv
  swap
  · simp [guard, h1] at hnet
  by_cases h2 : 1 ≤ c.numFc
  swap
  · simp [guard, h1, h2] at hnet
  cases hf : fcAssert c.numConv c.filters with
  | none => rw [hf] at hnet; simp [guard, h1, h2] at hnet
  | some u =>
    rw [hf] at hnet
    simp only [guard, if_pos h1, if_pos h2] at hnet
    exact (Option.some.inj hnet).symm

/-- **C171 (TDConv2DNetV1).** One output frame per input frame; output frame `t` is determined by the input frames from `t - l` to
`t + r`, `l` the sum over the layers of the halves of `d (k - 1)` rounded down, `r` rounded up. -/
theorem C171_conv (c : ConvCfg) (P : Params F) (z : F) (ks ds : List Nat) (h : Sizes c.numConv c.kernel c.dil c.dilFactor ks ds) (hk : ∀ k ∈ ks, 1 ≤ k)
    (net : List F → List F) (hnet : tdConv2d c P z = some net) : (∀ x, (net x).length = x.length) ∧
    Window net (List.zipWith (fun d k => d * (k - 1) / 2) ds ks).sum (List.zipWith (fun d k => (d * (k - 1) + 1) / 2) ds ks).sum := by
  rw [conv_eq c P z ks ds h net hnet]
  constructor
  · intro x
    rw [dense_length]
    apply fold_length
    intro h i
    unfold convStep
    simp only
    split_ifs <;> simp [convLayer_length]
  · have hstep : ∀ i ∈ List.range c.numConv, Window (fun x => convStep c ks ds P z x i) (ds.getD i 1 * (ks.getD i 1 - 1) / 2) ((ds.getD i 1 * (ks.getD i 1 - 1) + 1) / 2) := by
      intro i _
      have w := convLayer_window c.useBn P z (ks.getD i 1) (ds.getD i 1) i 0 (ks_getD ks hk i)
      unfold convStep
      by_cases hi : i < c.numPool
      · simp only [if_pos hi]
        exact window_comp w (window_map _)
      · simp only [if_neg hi]
        exact w
    have := window_comp (window_fold (convStep c ks ds P z) _ _ (List.range c.numConv) hstep) (dense_window c.useBn P c.numFc)
    rw [sum_layers (fun t => t / 2) c.numConv ks ds h.klen h.dlen, sum_layers (fun t => (t + 1) / 2) c.numConv ks ds h.klen h.dlen, Nat.add_zero, Nat.add_zero] at this
    exact this

/-- **C171 (no smaller window).** A window that is right for all weights reaches at least so far to both sides. -/
theorem C171_conv_tight (c : ConvCfg) (ks ds : List Nat) (h : Sizes c.numConv c.kernel c.dil c.dilFactor ks ds) (hk : ∀ k ∈ ks, 1 ≤ k)
    (h1 : 1 ≤ c.numConv) (h2 : 1 ≤ c.numFc) (h3 : ∀ l, c.filters = .many l → l.length = c.numConv) (l r : Nat)
    (hw : ∀ (P : Params Nat) (net : List Nat → List Nat), tdConv2d c P 0 = some net → Window net l r) :
    (List.zipWith (fun d k => d * (k - 1) / 2) ds ks).sum ≤ l ∧ (List.zipWith (fun d k => (d * (k - 1) + 1) / 2) ds ks).sum ≤ r := by
  have ex : ∀ P : Params Nat, ∃ net, tdConv2d c P 0 = some net := by
    intro P
    refine Option.ne_none_iff_exists'.1 ((C171_conv_arguments c P 0).2 ⟨h1, h2, ?_, h3, ?_⟩)
    · intro l hl
      rw [← h.kmany l hl]; exact h.klen
    · intro l hl
      rw [← h.dmany l hl]; exact h.dlen
  have step : ∀ last x i, convStep c ks ds (pick last) 0 x i = convLayer c.useBn (pick last) 0 (ks.getD i 1) (ds.getD i 1) i 0 x := by
    intro last x i
    unfold convStep
    simp only [pick_pool, ite_self]
  constructor
  · obtain ⟨net, hn⟩ := ex (pick false)
    have w := hw _ _ hn
    rw [conv_eq c _ 0 ks ds h net hn] at w
    simp only [pick_dense] at w
    have s := ShiftL.fold (step := convStep c ks ds (pick false) 0) (List.range c.numConv) (fun i _ => by
      rw [show (fun x => convStep c ks ds (pick false) 0 x i) = _ from funext (fun x => step false x i)]
      exact pick_layerL c.useBn (ks.getD i 1) (ds.getD i 1) i 0 (ks_getD ks hk i))
    rw [← sum_layers (fun t => t / 2) c.numConv ks ds h.klen h.dlen]
    exact s.le w
  · obtain ⟨net, hn⟩ := ex (pick true)
    have w := hw _ _ hn
    rw [conv_eq c _ 0 ks ds h net hn] at w
    simp only [pick_dense] at w
    have s := ShiftR.fold (step := convStep c ks ds (pick true) 0) (List.range c.numConv) (fun i _ => by
      rw [show (fun x => convStep c ks ds (pick true) 0 x i) = _ from funext (fun x => step true x i)]
      exact pick_layerR c.useBn (ks.getD i 1) (ds.getD i 1) i 0 (ks_getD ks hk i))
    rw [← sum_layers (fun t => (t + 1) / 2) c.numConv ks ds h.klen h.dlen]
    exact s.le w

/-- **C171 (layers of TDConv2DNetV1).** With kernels of one frame the network computes, on every frame, its layers in order: the
convolutions, each with normalization before and activation after it, the first `num_poolings` of them followed by a maximum; then
the dense layers. -/
theorem C171_conv_pointwise (c : ConvCfg) (P : Params F) (z : F) (ks ds : List Nat) (h : Sizes c.numConv c.kernel c.dil c.dilFactor ks ds) (hk : ∀ k ∈ ks, k = 1)
    (net : List F → List F) (hnet : tdConv2d c P z = some net) (x : List F) : net x = x.map (fun v =>
      let w := (List.range c.numConv).foldl (fun v i =>
        let u := P.act (P.conv i 0 [if c.useBn then P.bn i 0 v else v])
        if i < c.numPool then P.pool i u else u) v
      let w := (List.range (c.numFc - 1)).foldl (fun v i => P.act (P.fc i (if c.useBn then P.bnFc i v else v))) w
      P.out (if c.useBn then P.bnOut w else w)) := by
  rw [conv_eq c P z ks ds h net hnet]
  have hk1 : ∀ i, ks.getD i 1 = 1 := by
    intro i
    rw [List.getD_eq_getElem?_getD]
    cases e : ks[i]? with
    | none => rfl
    | some a => exact hk a (List.mem_of_getElem? e)
  have hfold : ∀ (l : List Nat) (x : List F), l.foldl (convStep c ks ds P z) x = x.map (fun v => l.foldl (fun v i =>
        let u := P.act (P.conv i 0 [if c.useBn then P.bn i 0 v else v])
        if i < c.numPool then P.pool i u else u) v) := by
    intro l
    induction l with
    | nil => intro x; simp
    | cons i l ih =>
      intro x
      rw [List.foldl_cons, ih]
      unfold convStep convLayer
      rw [hk1, conv_one]
      cases c.useBn <;> by_cases hi : i < c.numPool <;> simp [hi]
  simp only [hfold, dense_eq, List.map_map]
  apply List.map_congr_left
  intro v _
  simp only [Function.comp]

/-- the network with its default arguments: kernels 5, dilation rates 1, 2, 3 (`dilation_rate_factor` 1): 12 frames on each side -/
example : Sizes 3 (.one 5) (.one 1) 1 [5, 5, 5] [1, 2, 3] ∧ (List.zipWith (fun d k => d * (k - 1) / 2) [1, 2, 3] [5, 5, 5]).sum = 12 ∧
    tdConv2d ⟨3, 2, .one 5, .one 256, .one 1, 1, 3, true⟩ (pick true) 0 ≠ none := by
  refine ⟨⟨rfl, rfl, ?_, ?_, ?_, ?_⟩, rfl, (C171_conv_arguments _ _ _).2 ⟨by decide, by decide, ?_, ?_, ?_⟩⟩
  · intro l h; cases h
  · rintro k ⟨⟩ a h; simpa using h
  · intro l h; cases h
  · rintro d ⟨⟩ i a h
    match i, h with
    | 0, h => simpa using h.symm
    | 1, h => simpa using h.symm
    | 2, h => simpa using h.symm
    | i + 3, h => simp at h
  · intro l h; cases h
  · intro l h; cases h
  · intro l h; cases h

/-! ### TDVGGNetV1 -/

/-- Specification. `ns` and `ds` are the numbers of layers and the dilation rates of the blocks, when `num_block_layers` is a list. -/
structure Good (c : VggCfg) (ns ds : List Nat) : Prop where
  blocks : 1 ≤ c.blocks
  fc : 1 ≤ c.numFc
  filters : ∀ l, c.filters = .many l → l.length = c.blocks
  units : ∀ l, c.fcUnits = .many l → l.length + 1 = c.numFc
  layers : c.layers = .many ns
  nlen : ns.length = c.blocks
  dlen : ds.length = c.blocks
  dmany : ∀ l, c.dil = .many l → ds = l
  done : ∀ d, c.dil = .one d → ∀ (i a : Nat), ds[i]? = some a → a = d + i * c.dilFactor

theorem good_dil {c : VggCfg} {ns ds : List Nat} (h : Good c ns ds) : dilations c.blocks c.dilFactor c.dil = some ds :=
  sizes_dilations (n := c.blocks) (fac := c.dilFactor) (kernel := .many (List.replicate c.blocks 1)) (dil := c.dil) (ks := List.replicate c.blocks 1) (ds := ds)
    ⟨by simp, h.dlen, fun l hl => by cases hl; rfl, fun k hk => (by cases hk), h.dmany, h.done⟩

/-- the blocks, without the exceptions -/
def blockOn (c : VggCfg) (ns ds : List Nat) (P : Params F) (z : F) (h : List F) (b : Nat) : List F :=
  ((List.range (ns.getD b 0)).foldl (fun h i => convLayer c.useBn P z c.kernel (ds.getD b 1) b i h) h).map (P.pool b)

theorem vgg_fold (c : VggCfg) (ns ds : List Nat) (P : Params F) (z : F) (l : List Nat) (hl : ∀ b ∈ l, b < ns.length) (x : List F) :
    l.foldlM (vggBlock c ns ds P z) x = some (l.foldl (blockOn c ns ds P z) x) := by
  induction l generalizing x with
  | nil => rfl
  | cons b l ih =>
    have hb := hl b List.mem_cons_self
    rw [List.foldlM_cons, List.foldl_cons]
    have : vggBlock c ns ds P z x b = some (blockOn c ns ds P z x b) := by
      unfold vggBlock blockOn
      rw [List.getD_eq_getElem ns _ hb, List.getElem?_eq_getElem hb]
      rfl
    rw [this]
    exact ih (fun b' hb' => hl b' (List.mem_cons_of_mem _ hb')) _

theorem vgg_eq (c : VggCfg) (ns ds : List Nat) (h : Good c ns ds) (P : Params F) (z : F) (x : List F) :
    tdVgg c P z x = some (dense c.useBn P c.numFc ((List.range c.blocks).foldl (blockOn c ns ds P z) x)) := by
  unfold tdVgg
  rw [good_dil h, h.layers, (fcAssert_iff _ _).2 h.filters, (fcAssert_iff (c.numFc - 1) c.fcUnits).2 (fun l hl => by have := h.units l hl; omega)]
  simp only [guard, if_pos h.blocks, if_pos h.fc, blockLayers, if_pos h.nlen, Option.pure_def, Option.bind_eq_bind, Option.bind_some]
  rw [vgg_fold c ns ds P z _ (fun b hb => by rw [h.nlen]; exact List.mem_range.1 hb)]
  rfl

theorem block_sum (g : Nat → Nat → Nat) (n : Nat) (ns ds : List Nat) (hn : ns.length = n) (hd : ds.length = n) :
    ((List.range n).map (fun b => g (ns.getD b 0) (ds.getD b 1))).sum = (List.zipWith g ns ds).sum := by
  congr 1
  apply List.ext_getElem
  · rw [List.length_map, List.length_range, List.length_zipWith, hn, hd, Nat.min_self]
  · intro i h1 h2
    rw [List.length_map, List.length_range] at h1
    rw [List.getElem_map, List.getElem_range, List.getElem_zipWith, List.getD_eq_getElem _ _ (by omega), List.getD_eq_getElem _ _ (by omega)]

theorem const_sum (n a : Nat) : ((List.range n).map (fun _ => a)).sum = n * a := by
  rw [List.map_const', List.length_range, List.sum_replicate]
  rfl

/-- **C171 (TDVGGNetV1).** One output frame per input frame; output frame `t` is determined by the input frames from `t - l` to `t + r`,
`l` the sum over the blocks of the number of layers times half of `d (k - 1)` rounded down, `r` rounded up. -/
theorem C171_vgg (c : VggCfg) (ns ds : List Nat) (h : Good c ns ds) (hk : 1 ≤ c.kernel) (P : Params F) (z : F) :
    ∃ net : List F → List F, (∀ x, tdVgg c P z x = some (net x)) ∧ (∀ x, (net x).length = x.length) ∧
      Window net (List.zipWith (fun n d => n * (d * (c.kernel - 1) / 2)) ns ds).sum (List.zipWith (fun n d => n * ((d * (c.kernel - 1) + 1) / 2)) ns ds).sum := by
  refine ⟨_, vgg_eq c ns ds h P z, ?_, ?_⟩
  · intro x
    rw [dense_length]
    apply fold_length
    intro x b
    unfold blockOn
    rw [List.length_map]
    exact fold_length _ (fun h i => convLayer_length _ _ _ _ _ _ _ _) _ _
  · have hb : ∀ b ∈ List.range c.blocks, Window (fun x => blockOn c ns ds P z x b) (ns.getD b 0 * (ds.getD b 1 * (c.kernel - 1) / 2)) (ns.getD b 0 * ((ds.getD b 1 * (c.kernel - 1) + 1) / 2)) := by
      intro b _
      have := window_comp (window_fold (fun h i => convLayer c.useBn P z c.kernel (ds.getD b 1) b i h) _ _ (List.range (ns.getD b 0))
        (fun i _ => convLayer_window c.useBn P z c.kernel (ds.getD b 1) b i hk)) (window_map (P.pool b))
      rw [const_sum, const_sum, Nat.add_zero, Nat.add_zero] at this
      exact this
    have := window_comp (window_fold (blockOn c ns ds P z) _ _ (List.range c.blocks) hb) (dense_window c.useBn P c.numFc)
    rw [block_sum (fun n d => n * (d * (c.kernel - 1) / 2)) c.blocks ns ds h.nlen h.dlen,
      block_sum (fun n d => n * ((d * (c.kernel - 1) + 1) / 2)) c.blocks ns ds h.nlen h.dlen, Nat.add_zero, Nat.add_zero] at this
    exact this

/-- **C171 (no smaller window, TDVGGNetV1).** -/
theorem C171_vgg_tight (c : VggCfg) (ns ds : List Nat) (h : Good c ns ds) (hk : 1 ≤ c.kernel) (l r : Nat)
    (hw : ∀ (P : Params Nat) (net : List Nat → List Nat), (∀ x, tdVgg c P 0 x = some (net x)) → Window net l r) :
    (List.zipWith (fun n d => n * (d * (c.kernel - 1) / 2)) ns ds).sum ≤ l ∧ (List.zipWith (fun n d => n * ((d * (c.kernel - 1) + 1) / 2)) ns ds).sum ≤ r := by
  have step : ∀ last x b, blockOn c ns ds (pick last) 0 x b =
      (List.range (ns.getD b 0)).foldl (fun h i => convLayer c.useBn (pick last) 0 c.kernel (ds.getD b 1) b i h) x := by
    intro last x b
    unfold blockOn
    exact pick_pool last b _
  constructor
  · have w := hw (pick false) _ (vgg_eq c ns ds h _ 0)
    simp only [pick_dense] at w
    have s := ShiftL.fold (step := blockOn c ns ds (pick false) 0) (s := fun b => ns.getD b 0 * (ds.getD b 1 * (c.kernel - 1) / 2)) (List.range c.blocks) (fun b _ => by
      rw [show (fun x => blockOn c ns ds (pick false) 0 x b) = _ from funext (fun x => step false x b), ← const_sum]
      exact ShiftL.fold _ (fun i _ => pick_layerL c.useBn c.kernel (ds.getD b 1) b i hk))
    rw [← block_sum (fun n d => n * (d * (c.kernel - 1) / 2)) c.blocks ns ds h.nlen h.dlen]
    exact s.le w
  · have w := hw (pick true) _ (vgg_eq c ns ds h _ 0)
    simp only [pick_dense] at w
    have s := ShiftR.fold (step := blockOn c ns ds (pick true) 0) (s := fun b => ns.getD b 0 * ((ds.getD b 1 * (c.kernel - 1) + 1) / 2)) (List.range c.blocks) (fun b _ => by
      rw [show (fun x => blockOn c ns ds (pick true) 0 x b) = _ from funext (fun x => step true x b), ← const_sum]
      exact ShiftR.fold _ (fun i _ => pick_layerR c.useBn c.kernel (ds.getD b 1) b i hk))
    rw [← block_sum (fun n d => n * ((d * (c.kernel - 1) + 1) / 2)) c.blocks ns ds h.nlen h.dlen]
    exact s.le w

/-- **C171 (layers of TDVGGNetV1).** With kernels of one frame: the layers in order, a maximum after each block. -/
theorem C171_vgg_pointwise (c : VggCfg) (ns ds : List Nat) (h : Good c ns ds) (hk : c.kernel = 1) (P : Params F) (z : F) (x : List F) :
    tdVgg c P z x = some (x.map (fun v =>
      let w := (List.range c.blocks).foldl (fun v b =>
        P.pool b ((List.range (ns.getD b 0)).foldl (fun v i => P.act (P.conv b i [if c.useBn then P.bn b i v else v])) v)) v
      let w := (List.range (c.numFc - 1)).foldl (fun v i => P.act (P.fc i (if c.useBn then P.bnFc i v else v))) w
      P.out (if c.useBn then P.bnOut w else w))) := by
  rw [vgg_eq c ns ds h]
  have hin : ∀ (b : Nat) (l : List Nat) (x : List F), l.foldl (fun h i => convLayer c.useBn P z c.kernel (ds.getD b 1) b i h) x =
      x.map (fun v => l.foldl (fun v i => P.act (P.conv b i [if c.useBn then P.bn b i v else v])) v) := by
    intro b l
    induction l with
    | nil => intro x; simp
    | cons i l ih =>
      intro x
      rw [List.foldl_cons, ih]
      unfold convLayer
      rw [hk, conv_one]
      cases c.useBn <;> simp
  have hfold : ∀ (l : List Nat) (x : List F), l.foldl (blockOn c ns ds P z) x = x.map (fun v => l.foldl (fun v b =>
        P.pool b ((List.range (ns.getD b 0)).foldl (fun v i => P.act (P.conv b i [if c.useBn then P.bn b i v else v])) v)) v) := by
    intro l
    induction l with
    | nil => intro x; simp
    | cons b l ih =>
      intro x
      rw [List.foldl_cons, ih]
      unfold blockOn
      rw [hin]
      simp
  rw [hfold, dense_eq, List.map_map]
  rfl

/-- **C171 (defect: one number of layers for all blocks).** A number `n` of layers per block instead of a list: with fewer layers than
blocks the constructor raises, otherwise the network is that of the list. -/
theorem C171_vgg_number (c : VggCfg) (n : Nat) (hc : c.layers = .one n) (P : Params F) (z : F) (x : List F) :
    (n < c.blocks → tdVgg c P z x = none) ∧
    (c.blocks ≤ n → tdVgg c P z x = tdVgg { c with layers := .many (List.replicate c.blocks n) } P z x) := by
  have hbl : blockLayers c.blocks c.layers = some (List.replicate n n) := by
    rw [hc]
    show some _ = _
    rw [List.map_const', List.length_range]
  constructor
  · intro hlt
    unfold tdVgg
    rw [hbl]
    have hf : ∀ (ds : List Nat) (l : List Nat) (x : List F), n ∈ l → l.foldlM (vggBlock c (List.replicate n n) ds P z) x = none := by
      intro ds l
      induction l with
      | nil => intro x h; cases h
      | cons b l ih =>
        intro x h
        rw [List.foldlM_cons]
        rcases hv : vggBlock c (List.replicate n n) ds P z x b with _ | y
        · rfl
        · rcases List.mem_cons.1 h with rfl | h
          · exfalso
            unfold vggBlock at hv
            rw [List.getElem?_eq_none (by simp)] at hv
            cases hv
          · exact ih y h
    cases fcAssert c.blocks c.filters <;> cases fcAssert (c.numFc - 1) c.fcUnits <;> cases dilations c.blocks c.dilFactor c.dil <;>
      by_cases h1 : 1 ≤ c.blocks <;> by_cases h2 : 1 ≤ c.numFc <;> simp [guard, h1, h2, hf _ _ _ (List.mem_range.2 hlt)]
  · intro hle
    have hf : ∀ (ds : List Nat) (l : List Nat) (x : List F), (∀ b ∈ l, b < c.blocks) → l.foldlM (vggBlock c (List.replicate n n) ds P z) x =
        l.foldlM (vggBlock { c with layers := .many (List.replicate c.blocks n) } (List.replicate c.blocks n) ds P z) x := by
      intro ds l
      induction l with
      | nil => intro x _; rfl
      | cons b l ih =>
        intro x h
        have hb := h b List.mem_cons_self
        rw [List.foldlM_cons, List.foldlM_cons]
        have : vggBlock c (List.replicate n n) ds P z x b = vggBlock { c with layers := .many (List.replicate c.blocks n) } (List.replicate c.blocks n) ds P z x b := by
          unfold vggBlock
          rw [List.getElem?_replicate_of_lt (by omega), List.getElem?_replicate_of_lt hb]
        rw [this]
        congr 1
        funext y
        exact ih y (fun b' hb' => h b' (List.mem_cons_of_mem _ hb'))
    unfold tdVgg
    rw [hbl]
    have : blockLayers c.blocks (.many (List.replicate c.blocks n)) = some (List.replicate c.blocks n) := if_pos (by simp)
    simp only [this, Option.bind_eq_bind, Option.bind_some]
    simp only [hf _ (List.range c.blocks) x (fun b hb => List.mem_range.1 hb)]

/-- **C171 (TDVGG16, TDVGG19).** With dilation rate `d` in all blocks, an output frame sees `13 d` frames on each side, or `16 d`. -/
theorem C171_vgg_named (d : Nat) (useBn : Bool) (P : Params F) (z : F) :
    (∃ net : List F → List F, (∀ x, tdVgg (vggNamed 3 d 0 useBn) P z x = some (net x)) ∧ Window net (13 * d) (13 * d)) ∧
    (∃ net : List F → List F, (∀ x, tdVgg (vggNamed 4 d 0 useBn) P z x = some (net x)) ∧ Window net (16 * d) (16 * d)) := by
  have hg : ∀ last, Good (vggNamed last d 0 useBn) [2, 2, last, last, last] [d, d, d, d, d] := by
    intro last
    refine ⟨show 1 ≤ 5 by decide, show 1 ≤ 3 by decide, ?_, ?_, rfl, rfl, rfl, ?_, ?_⟩
    · intro l h; cases h
    · intro l h; cases h
    · intro l h; cases h
    · rintro d' ⟨⟩ i a h
      have : a ∈ [d, d, d, d, d] := List.mem_of_getElem? h
      have : a = d := by simpa using this
      rw [this]
      rfl
  constructor
  · obtain ⟨net, h1, -, h3⟩ := C171_vgg _ _ _ (hg 3) (show 1 ≤ 3 by decide) P z
    refine ⟨net, h1, window_mono h3 ?_ ?_⟩
    · change 2 * (d * 2 / 2) + (2 * (d * 2 / 2) + (3 * (d * 2 / 2) + (3 * (d * 2 / 2) + (3 * (d * 2 / 2) + 0)))) ≤ _
      omega
    · change 2 * ((d * 2 + 1) / 2) + (2 * ((d * 2 + 1) / 2) + (3 * ((d * 2 + 1) / 2) + (3 * ((d * 2 + 1) / 2) + (3 * ((d * 2 + 1) / 2) + 0)))) ≤ _
      omega
  · obtain ⟨net, h1, -, h3⟩ := C171_vgg _ _ _ (hg 4) (show 1 ≤ 3 by decide) P z
    refine ⟨net, h1, window_mono h3 ?_ ?_⟩
    · change 2 * (d * 2 / 2) + (2 * (d * 2 / 2) + (4 * (d * 2 / 2) + (4 * (d * 2 / 2) + (4 * (d * 2 / 2) + 0)))) ≤ _
      omega
    · change 2 * ((d * 2 + 1) / 2) + (2 * ((d * 2 + 1) / 2) + (4 * ((d * 2 + 1) / 2) + (4 * ((d * 2 + 1) / 2) + (4 * ((d * 2 + 1) / 2) + 0)))) ≤ _
      omega

/-- **C171 (TDVGGNetV1: assertions).** -/
theorem C171_vgg_asserts (c : VggCfg) (P : Params F) (z : F) (x : List F)
    (h : c.blocks = 0 ∨ c.numFc = 0 ∨ (∃ l, c.filters = .many l ∧ l.length ≠ c.blocks) ∨ (∃ l, c.layers = .many l ∧ l.length ≠ c.blocks) ∨
      (∃ l, c.fcUnits = .many l ∧ l.length + 1 ≠ c.numFc) ∨ ∃ l, c.dil = .many l ∧ l.length ≠ c.blocks) : tdVgg c P z x = none := by
  unfold tdVgg
  by_cases h1 : 1 ≤ c.blocks
  swap
  · simp [guard, h1]
  by_cases h2 : 1 ≤ c.numFc
  swap
  · simp [guard, h1, h2]
  have key : fcAssert c.blocks c.filters = none ∨ blockLayers c.blocks c.layers = none ∨ fcAssert (c.numFc - 1) c.fcUnits = none ∨
      dilations c.blocks c.dilFactor c.dil = none := by
    rcases h with h | h | ⟨l, e, h⟩ | ⟨l, e, h⟩ | ⟨l, e, h⟩ | ⟨l, e, h⟩
    · omega
    · omega
    · left
      rw [e]
      exact if_neg (fun h' => h h'.symm)
    · right; left
      rw [e]
      exact if_neg h
    · right; right; left
      rw [e]
      exact if_neg (by omega)
    · right; right; right
      rw [e]
      exact if_neg (fun h' => h h'.symm)
  cases e1 : fcAssert c.blocks c.filters <;> cases e2 : blockLayers c.blocks c.layers <;> cases e3 : fcAssert (c.numFc - 1) c.fcUnits <;>
    cases e4 : dilations c.blocks c.dilFactor c.dil <;> simp [guard, h1, h2]
  simp [e1, e2, e3, e4] at key

end Hyp.Keras.TdConv
