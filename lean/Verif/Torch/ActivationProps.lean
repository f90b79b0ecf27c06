import Verif.Torch.Activation
import Verif.NpLemmas

/-!
C160: activation functions by name.
-/

namespace Hyp.Torch

open Hyp.Cli (Val)

/-! ### Specification -/

/-- documented names: name, class of torch, parameters with default (`none`: required) -/
def actTable : List (String × String × List (String × Option Val)) :=
  [("elu", "ELU", [("alpha", some (.int 1)), ("inplace", some (.bool false))]),
   ("hardshrink", "Hardshrink", [("lambd", some (.dec 5 1))]),
   ("hardtanh", "Hardtanh", [("min_val", some (.int (-1))), ("max_val", some (.int 1)), ("inplace", some (.bool false))]),
   ("leakyrelu", "LeakyReLU", [("negative_slope", some (.dec 1 2)), ("inplace", some (.bool false))]),
   ("logsigmoid", "LogSigmoid", []),
   ("prelu", "PReLU", [("num_parameters", some (.int 1)), ("init", some (.dec 25 2))]),
   ("relu", "ReLU", [("inplace", some (.bool false))]),
   ("relu6", "ReLU6", [("inplace", some (.bool false))]),
   ("rrelu", "RReLU", [("lower", some (.dec 125 3)), ("upper", some (.str "1/3")), ("inplace", some (.bool false))]),
   ("selu", "SELU", [("inplace", some (.bool false))]),
   ("celu", "CELU", [("alpha", some (.int 1)), ("inplace", some (.bool false))]),
   ("sigmoid", "Sigmoid", []),
   ("softplus", "Softplus", [("beta", some (.int 1)), ("threshold", some (.int 20))]),
   ("softshrink", "Softshrink", [("lambd", some (.dec 5 1))]),
   ("softsign", "Softsign", []),
   ("tanh", "Tanh", []),
   ("tanhshrink", "Tanhshrink", []),
   ("threshold", "Threshold", [("threshold", none), ("value", none), ("inplace", some (.bool false))]),
   ("softmin", "Softmin", [("dim", some .null)]),
   ("softmax", "Softmax", [("dim", some .null)]),
   ("softmax2d", "Softmax2d", []),
   ("logsoftmax", "LogSoftmax", [("dim", some .null)]),
   ("alogsoftmax", "AdaptiveLogSoftmaxWithLoss",
     [("in_features", none), ("n_classes", none), ("cutoffs", none), ("div_value", some (.int 4)), ("head_bias", some (.bool false))])]

/-- the module has the parameters of `ps`, with the given values or the defaults -/
def HasParams (kw : List (String × Val)) (ps : List (String × Option Val)) (a : List (String × Val)) : Prop :=
  List.Forall₂ (fun p q => q.1 = p.1 ∧ (dictGet kw p.1 = some q.2 ∨ dictGet kw p.1 = none ∧ p.2 = some q.2)) ps a

/-! ### Proofs -/

theorem construct_iff {cls : String} {sig : List (String × Option Val)} (hs : torchSig cls = some sig) (kw : List (String × Val)) (m : ActMod) :
    construct cls kw = some m ↔ m.cls = cls ∧ (∀ q ∈ kw, ∃ p ∈ sig, p.1 = q.1) ∧ HasParams kw sig m.attrs := by
  have hm : ∀ (l : List (String × Option Val)) (a : List (String × Val)),
      l.mapM (fun p : String × Option Val => ((dictGet kw p.1).orElse (fun _ => p.2)).map (fun v : Val => (p.1, v))) = some a ↔ HasParams kw l a := by
    intro l
    induction l with
    | nil => intro a; simp only [List.mapM_nil]; constructor
             · intro h; cases h; exact .nil
             · intro h; cases h; rfl
    | cons p l ih =>
      intro a
      rw [List.mapM_cons]
      constructor
      · intro h
        cases hg : dictGet kw p.1 with
        | none =>
          cases hp : p.2 with
          | none => simp [hg, hp] at h
          | some v =>
            rw [hg, hp] at h
            cases hr : l.mapM (fun p : String × Option Val => ((dictGet kw p.1).orElse (fun _ => p.2)).map (fun v : Val => (p.1, v))) with
            | none => rw [hr] at h; simp at h
            | some b =>
              rw [hr] at h
              have h : some ((p.1, v) :: b) = some a := h
              cases h
              exact .cons ⟨rfl, .inr ⟨hg, hp⟩⟩ ((ih b).1 hr)
        | some v =>
          rw [hg] at h
          cases hr : l.mapM (fun p : String × Option Val => ((dictGet kw p.1).orElse (fun _ => p.2)).map (fun v : Val => (p.1, v))) with
          | none => rw [hr] at h; simp at h
          | some b =>
            rw [hr] at h
            have h : some ((p.1, v) :: b) = some a := h
            cases h
            exact .cons ⟨rfl, .inl hg⟩ ((ih b).1 hr)
      · intro h
        cases h with
        | @cons _ q _ b h1 h2 =>
          obtain ⟨k, v⟩ := q
          obtain ⟨rfl, h1⟩ := h1
          rw [(ih b).2 h2]
          rcases h1 with h1 | ⟨h1, h3⟩
          · rw [h1]; rfl
          · rw [h1, h3]; rfl
  unfold construct
  rw [hs, Option.bind_some]
  have hc : kw.all (fun q => sig.any (fun p => decide (p.1 = q.1))) = true ↔ ∀ q ∈ kw, ∃ p ∈ sig, p.1 = q.1 := by
    simp [List.all_eq_true, List.any_eq_true]
  obtain ⟨c, a⟩ := m
  by_cases h : kw.all (fun q => sig.any (fun p => decide (p.1 = q.1))) = true
  · rw [if_pos h, Option.map_eq_some_iff]
    constructor
    · rintro ⟨b, h1, h2⟩
      cases h2
      exact ⟨rfl, hc.1 h, (hm _ _).1 h1⟩
    · rintro ⟨rfl, _, h3⟩
      exact ⟨a, (hm _ _).2 h3, rfl⟩
  · rw [if_neg h]
    constructor
    · intro h; cases h
    · rintro ⟨_, h2, _⟩; exact absurd (hc.2 h2) h

theorem dictGet_mem {β : Type} {l : List (String × β)} {k : String} {v : β} (h : dictGet l k = some v) : (k, v) ∈ l := by
  induction l with
  | nil => cases h
  | cons q l ih =>
    obtain ⟨a, b⟩ := q
    unfold dictGet at h
    split at h
    · rename_i e
      have e : a = k := by simpa using e
      cases h; subst e; simp
    · exact List.mem_cons_of_mem _ (ih h)

theorem table_sig : ∀ t ∈ actTable, dictGet actDict t.1 = some t.2.1 ∧ torchSig t.2.1 = some t.2.2 := by decide +kernel

theorem dict_table : ∀ q ∈ actDict, ∃ t ∈ actTable, t.1 = q.1 := by decide +kernel

/-- **C160**: `create_from_str` makes a module exactly for the documented names with known arguments of which none is missing, and the module has the
given arguments and the defaults for the others -/
theorem C160_create (name : String) (kw : List (String × Val)) (m : ActMod) :
    createFromStr name kw = some m ↔ ∃ t ∈ actTable, t.1 = name ∧ m.cls = t.2.1 ∧ (∀ q ∈ kw, ∃ p ∈ t.2.2, p.1 = q.1) ∧ HasParams kw t.2.2 m.attrs := by
  unfold createFromStr
  constructor
  · intro h
    rw [Option.bind_eq_some_iff] at h
    obtain ⟨c, h1, h2⟩ := h
    obtain ⟨t, ht, e⟩ := dict_table _ (dictGet_mem h1)
    dsimp only at e
    subst e
    obtain ⟨h3, h4⟩ := table_sig t ht
    rw [h3] at h1
    cases h1
    exact ⟨t, ht, rfl, (construct_iff h4 kw m).1 h2⟩
  · rintro ⟨t, ht, rfl, h⟩
    obtain ⟨h3, h4⟩ := table_sig t ht
    rw [h3, Option.bind_some]
    exact (construct_iff h4 kw m).2 h

/-- the arguments as they are stored are accepted again and give themselves -/
theorem params_again {kw : List (String × Val)} {ps : List (String × Option Val)} {a : List (String × Val)} (hn : (ps.map Prod.fst).Nodup)
    (h : HasParams kw ps a) : HasParams a ps a := by
  have hfst : a.map Prod.fst = ps.map Prod.fst := by
    clear hn
    induction h with
    | nil => rfl
    | cons h1 _ ih => rw [List.map_cons, List.map_cons, ih, h1.1]
  have hget : ∀ (l : List (String × Val)), (l.map Prod.fst).Nodup → ∀ q ∈ l, dictGet l q.1 = some q.2 := by
    intro l
    induction l with
    | nil => simp
    | cons p l ih =>
      intro hn q hq
      rw [List.map_cons, List.nodup_cons] at hn
      rcases List.mem_cons.1 hq with rfl | hq'
      · simp [dictGet]
      · have : p.1 ≠ q.1 := fun e => hn.1 (e ▸ List.mem_map_of_mem (f := Prod.fst) hq')
        obtain ⟨a, b⟩ := p
        simp only [dictGet]
        have h' := ih hn.2 q hq'
        simpa [this] using h'
  have hg := hget a (hfst ▸ hn)
  have : ∀ (b : List (String × Val)) (ps : List (String × Option Val)), (∀ q ∈ b, dictGet a q.1 = some q.2) → HasParams kw ps b → HasParams a ps b := by
    intro b ps hb h
    induction h with
    | nil => exact .nil
    | @cons p q _ _ h1 _ ih =>
      exact .cons ⟨h1.1, .inl (by rw [← h1.1]; exact hb q (by simp))⟩ (ih (fun q hq => hb q (by simp [hq])))
  exact this a ps hg h

theorem mapM_attrs {a : List (String × Val)} (hn : (a.map Prod.fst).Nodup) (f : String → Option Val) (hf : ∀ q ∈ a, f q.1 = some q.2) :
    (a.map Prod.fst).mapM (fun k : String => (f k).map (fun v : Val => (k, v))) = some a := by
  clear hn
  induction a with
  | nil => rfl
  | cons q a ih =>
    rw [List.map_cons, List.mapM_cons, hf q (by simp), ih (fun q hq => hf q (by simp [hq]))]
    rfl

theorem params_fst {kw : List (String × Val)} {ps : List (String × Option Val)} {a : List (String × Val)} (h : HasParams kw ps a) :
    a.map Prod.fst = ps.map Prod.fst := by
  induction h with
  | nil => rfl
  | cons h1 _ ih => rw [List.map_cons, List.map_cons, ih, h1.1]

/-- names for which the configuration is complete -/
def goodNames : List String :=
  ["elu", "hardshrink", "hardtanh", "leakyrelu", "logsigmoid", "prelu", "relu", "rrelu", "selu", "celu", "softplus", "tanh", "tanhshrink", "threshold",
   "softmin", "softmax", "softmax2d", "logsoftmax"]

theorem good_tests : ∀ t ∈ actTable, t.1 ∈ goodNames →
    configTests.find? (fun c => isInst ⟨t.2.1, []⟩ c.1) = some (t.2.1, t.1, t.2.2.map Prod.fst) ∧ t.2.1 ≠ "ReLU6" ∧ (t.2.2.map Prod.fst).Nodup := by
  decide +kernel

theorem isInst_cls (c : String) (a b : List (String × Val)) (x : String) : isInst ⟨c, a⟩ x = isInst ⟨c, b⟩ x := rfl

/-- **C160**: for these eighteen names the configuration of a module, given back to `create_from_str`, makes the same module -/
theorem C160_config_round_trip (name : String) (hn : name ∈ goodNames) (kw : List (String × Val)) (m : ActMod) (h : createFromStr name kw = some m) :
    ∃ args, getConfig m = some (some (name, args)) ∧ createFromStr name args = some m := by
  obtain ⟨t, ht, rfl, h1, _, h3⟩ := (C160_create name kw m).1 h
  obtain ⟨g1, g2, g3⟩ := good_tests t ht hn
  obtain ⟨c, a⟩ := m
  dsimp only at h1 h3
  subst h1
  have ha := params_fst h3
  have hagain := params_again g3 h3
  have hattr : ∀ q ∈ a, attr ⟨t.2.1, a⟩ q.1 = some q.2 := by
    intro q hq
    unfold attr
    rw [if_neg (fun h => g2 h.1), if_neg (fun h => g2 h.1)]
    have : ∀ (ps : List (String × Option Val)) (b : List (String × Val)), HasParams a ps b → ∀ q ∈ b, dictGet a q.1 = some q.2 ∨ dictGet a q.1 = none := by
      intro ps b h
      induction h with
      | nil => simp
      | cons h1 _ ih =>
        intro q hq
        rcases List.mem_cons.1 hq with rfl | hq
        · rw [h1.1]; rcases h1.2 with h | h
          · exact .inl h
          · exact .inr h.1
        · exact ih q hq
    rcases this _ _ hagain q hq with h | h
    · exact h
    · exfalso
      have : q.1 ∈ a.map Prod.fst := List.mem_map_of_mem hq
      clear * - h this
      induction a with
      | nil => simp at this
      | cons p a ih =>
        obtain ⟨x, y⟩ := p
        simp only [dictGet] at h
        split at h
        · cases h
        · rename_i hx
          refine ih h ?_
          rcases List.mem_cons.1 this with e | e
          · exfalso; simp at e; exact hx (by simp [e])
          · exact e
  refine ⟨a, ?_, ?_⟩
  · unfold getConfig
    have : configTests.find? (fun c => isInst ⟨t.2.1, a⟩ c.1) = some (t.2.1, t.1, t.2.2.map Prod.fst) := g1
    rw [this]
    dsimp only
    rw [← ha, mapM_attrs (ha ▸ g3) (attr ⟨t.2.1, a⟩) hattr]
    rfl
  · refine (C160_create t.1 a ⟨t.2.1, a⟩).2 ⟨t, ht, rfl, rfl, fun q hq => ?_, hagain⟩
    have : q.1 ∈ t.2.2.map Prod.fst := ha ▸ List.mem_map_of_mem hq
    obtain ⟨p, hp, e⟩ := List.mem_map.1 this
    exact ⟨p, hp, e⟩

/-- **C160**: the other five names: the configuration of a sigmoid or of an adaptive softmax has a name that the factory does not know; that of softsign
raises; that of a soft shrinkage forgets its parameter; that of ReLU6 makes a Hardtanh between 0 and 6 -/
theorem C160_config_bad (kw : List (String × Val)) (m : ActMod) :
    (createFromStr "sigmoid" kw = some m → getConfig m = some (some ("simoid", [])) ∧ ∀ a, createFromStr "simoid" a = none) ∧
    (createFromStr "alogsoftmax" kw = some m → ∃ args, getConfig m = some (some ("asoftmax", args)) ∧ ∀ a, createFromStr "asoftmax" a = none) ∧
    (createFromStr "softsign" kw = some m → getConfig m = none) ∧
    (createFromStr "softshrink" kw = some m → getConfig m = some (some ("softshrink", [])) ∧
      createFromStr "softshrink" [] = some ⟨"Softshrink", [("lambd", .dec 5 1)]⟩) ∧
    (∀ i, m = ⟨"ReLU6", [("inplace", i)]⟩ → getConfig m = some (some ("hardtanh", [("min_val", .int 0), ("max_val", .int 6), ("inplace", i)])) ∧
      createFromStr "hardtanh" [("min_val", .int 0), ("max_val", .int 6), ("inplace", i)] =
        some ⟨"Hardtanh", [("min_val", .int 0), ("max_val", .int 6), ("inplace", i)]⟩) := by
  have cls : ∀ n c ps, (n, c, ps) ∈ actTable → (∀ t ∈ actTable, t.1 = n → t = (n, c, ps)) → createFromStr n kw = some m → m.cls = c ∧ HasParams kw ps m.attrs := by
    intro n c ps _ hu h
    obtain ⟨t, ht, e, h1, _, h3⟩ := (C160_create n kw m).1 h
    have := hu t ht e
    subst this
    exact ⟨h1, h3⟩
  obtain ⟨c, a⟩ := m
  refine ⟨fun h => ?_, fun h => ?_, fun h => ?_, fun h => ?_, fun i e => ?_⟩
  · obtain ⟨e, h3⟩ := cls "sigmoid" "Sigmoid" [] (by decide +kernel) (by decide +kernel) h
    dsimp only at e; subst e
    exact ⟨rfl, fun a => rfl⟩
  · obtain ⟨e, h3⟩ := cls "alogsoftmax" "AdaptiveLogSoftmaxWithLoss"
      [("in_features", none), ("n_classes", none), ("cutoffs", none), ("div_value", some (.int 4)), ("head_bias", some (.bool false))] (by decide +kernel) (by decide +kernel) h
    dsimp only at e; subst e
    have hf := params_fst h3
    obtain ⟨⟨k1, v1⟩, a, rfl⟩ : ∃ q b, a = q :: b := by cases a with | nil => simp at hf | cons q b => exact ⟨q, b, rfl⟩
    obtain ⟨⟨k2, v2⟩, a, rfl⟩ : ∃ q b, a = q :: b := by cases a with | nil => simp at hf | cons q b => exact ⟨q, b, rfl⟩
    obtain ⟨⟨k3, v3⟩, a, rfl⟩ : ∃ q b, a = q :: b := by cases a with | nil => simp at hf | cons q b => exact ⟨q, b, rfl⟩
    obtain ⟨⟨k4, v4⟩, a, rfl⟩ : ∃ q b, a = q :: b := by cases a with | nil => simp at hf | cons q b => exact ⟨q, b, rfl⟩
    obtain ⟨⟨k5, v5⟩, a, rfl⟩ : ∃ q b, a = q :: b := by cases a with | nil => simp at hf | cons q b => exact ⟨q, b, rfl⟩
    simp only [List.map_cons, List.map_nil, List.cons.injEq, List.map_eq_nil_iff] at hf
    obtain ⟨rfl, rfl, rfl, rfl, rfl, rfl⟩ := hf
    exact ⟨[("in_features", v1), ("n_classes", v2), ("cutoffs", v3), ("div_value", v4), ("head_bias", v5)], rfl, fun a => rfl⟩
  · obtain ⟨e, h3⟩ := cls "softsign" "Softsign" [] (by decide +kernel) (by decide +kernel) h
    dsimp only at e h3; subst e
    cases h3
    rfl
  · obtain ⟨e, h3⟩ := cls "softshrink" "Softshrink" [("lambd", some (.dec 5 1))] (by decide +kernel) (by decide +kernel) h
    dsimp only at e; subst e
    exact ⟨rfl, by decide +kernel⟩
  · cases e
    exact ⟨rfl, rfl⟩

/-- **C160**: `create` makes a module from its name, returns a module or None as it is, and raises for every dict, also for its own configurations -/
theorem C160_create_args (kw : List (String × Val)) :
    (∀ n m, create (.name n) kw = some m ↔ ∃ x, m = some x ∧ createFromStr n kw = some x) ∧ (∀ m, create (.obj m) kw = some m) ∧
    ∀ d, create (.dict d) kw = none := by
  refine ⟨fun n m => ?_, fun m => rfl, fun d => ?_⟩
  · show (createFromStr n kw).map some = some m ↔ _
    rw [Option.map_eq_some_iff]
    constructor
    · rintro ⟨x, h, rfl⟩; exact ⟨x, rfl, h⟩
    · rintro ⟨x, rfl, h⟩; exact ⟨x, h, rfl⟩
  · show (match dictGet d "name" with
      | some (.str n) => (delAttr d).bind (fun kw => (createFromStr n kw).map some)
      | _ => none) = none
    split <;> rfl

/-- a leaky ReLU with a slope, and a threshold without its arguments -/
example : createFromStr "leakyrelu" [("negative_slope", .dec 2 1)] = some ⟨"LeakyReLU", [("negative_slope", .dec 2 1), ("inplace", .bool false)]⟩ ∧
    createFromStr "threshold" [] = none ∧ createFromStr "relu" [("slope", .int 1)] = none ∧ createFromStr "swish" [] = none := by decide +kernel

end Hyp.Torch
