import Verif.Torch.Nets
import Verif.Torch.ActivationProps

/-!
C161: feed-forward networks.
-/

namespace Hyp.Torch

open Hyp.Cli (Val)

variable {X : Type}

/-! ### Specification -/

/-- layers one after the other -/
def Seq' (dim : X → Nat) (f : Part → X → X) : List Part → X → Option X
  | [], x => some x
  | p :: ps, x => (applyPart dim f p x).bind (Seq' dim f ps)

/-- layers do what their class says about the number of features -/
def Shapes (dim : X → Nat) (f : Part → X → X) : Prop :=
  (∀ l i o x, dim (f (.fc l i o) x) = o) ∧ ∀ p x, (∀ l i o, p ≠ .fc l i o) → dim (f p x) = dim x

/-- the documented network: `n` hidden layers with units `u 1, …, u n` after the input `u 0`, each one batch normalisation, linear layer, activation, dropout -/
def hiddenSpec (n : Nat) (u : Nat → Nat) (bn : Bool) (act : Option (ActMod × Nat)) (rate : Bool) : List Part :=
  (List.range n).flatMap (fun l => (if bn then [Part.bn l (u l)] else []) ++ [.fc l (u l) (u (l + 1))] ++ (act.toList.map .act) ++ (if rate then [.drop l] else []))

/-- the documented output layer -/
def outputSpec (n i o : Nat) (bn : Bool) (act : Option (ActMod × Nat)) : List Part :=
  (if bn then [Part.bn n i] else []) ++ [.fc n i o] ++ act.toList.map .act

/-- the units: the input, then the number for every layer or the list -/
def unitsOf (inp : Nat) : Units → Nat → Nat
  | _, 0 => inp
  | .same d, _ + 1 => d
  | .list ds, l + 1 => ds.getD l 0

/-- the arguments are accepted: activations by a known name that needs no argument, or as modules -/
def ActOk : Option ActIn → Option ActMod → Prop
  | none, m => m = none
  | some (.name s), m => ∃ x, m = some x ∧ createFromStr s [] = some x
  | some (.dict _), _ => False
  | some (.obj x _), m => m = some x

/-- the list of units, if it is one, has the right length -/
def UnitsOk (n : Nat) : Units → Prop
  | .same _ => True
  | .list ds => ds.length = n

/-! ### Proofs -/

theorem seq_append (dim : X → Nat) (f : Part → X → X) (a b : List Part) (x : X) : Seq' dim f (a ++ b) x = (Seq' dim f a x).bind (Seq' dim f b) := by
  induction a generalizing x with
  | nil => rfl
  | cons p a ih =>
    rw [List.cons_append, Seq', Seq']
    cases applyPart dim f p x with
    | none => rfl
    | some y => simp only [Option.bind_some]; exact ih y

theorem seq_one (dim : X → Nat) (f : Part → X → X) (p : Part) (x : X) : Seq' dim f [p] x = applyPart dim f p x := by
  rw [Seq']
  cases applyPart dim f p x <;> rfl

theorem seq_foldlM (dim : X → Nat) (f : Part → X → X) (a : List Part) (x : X) : ffForward dim f a x = Seq' dim f a x := by
  unfold ffForward
  induction a generalizing x with
  | nil => rfl
  | cons p a ih =>
    rw [List.foldlM_cons, Seq']
    cases applyPart dim f p x with
    | none => rfl
    | some y => exact ih y

theorem mkAct_ok {next : Nat} {a : ActIn} {m : ActMod} {i k : Nat} (h : mkAct next a = some ((m, i), k)) : ActOk (some a) (some m) := by
  cases a with
  | name s =>
    have h : (createFromStr s []).map (fun m => ((m, next), next + 1)) = some ((m, i), k) := h
    rw [Option.map_eq_some_iff] at h
    obtain ⟨x, h1, h2⟩ := h
    cases h2
    exact ⟨_, rfl, h1⟩
  | dict d =>
    have h : ((create (.dict d) []).bind id).map (fun m => ((m, next), next + 1)) = some ((m, i), k) := h
    rw [(C160_create_args []).2.2 d] at h
    cases h
  | obj x j => cases h; rfl

theorem mkAct_none {next : Nat} {a : ActIn} (h : mkAct next a = none) (m : Option ActMod) : ¬ ActOk (some a) m := by
  cases a with
  | name s =>
    have h : (createFromStr s []).map (fun m => ((m, next), next + 1)) = none := h
    rw [Option.map_eq_none_iff] at h
    rintro ⟨x, _, h2⟩
    rw [h] at h2; cases h2
  | dict d => exact id
  | obj x j => cases h

theorem mkAct?_ok {next : Nat} {a : Option ActIn} {m : Option (ActMod × Nat)} {k : Nat} (h : mkAct? next a = some (m, k)) : ActOk a (m.map Prod.fst) := by
  cases a with
  | none => cases h; rfl
  | some a =>
    have h : (mkAct next a).map (fun r => (some r.1, r.2)) = some (m, k) := h
    rw [Option.map_eq_some_iff] at h
    obtain ⟨⟨⟨x, i⟩, j⟩, h1, h2⟩ := h
    cases h2
    exact mkAct_ok h1

theorem mkAct?_none {next : Nat} {a : Option ActIn} (h : mkAct? next a = none) (m : Option ActMod) : ¬ ActOk a m := by
  cases a with
  | none => cases h
  | some a =>
    have h : (mkAct next a).map (fun r => (some r.1, r.2)) = none := h
    rw [Option.map_eq_none_iff] at h
    exact mkAct_none h m

/-- all hidden layers get the same module -/
theorem actLoop_eq (n next : Nat) (a : ActIn) : actLoop (n + 1) next a = (mkAct next a).map (fun r => List.replicate (n + 1) r.1) := by
  induction n generalizing next a with
  | zero =>
    rw [actLoop]
    cases mkAct next a <;> rfl
  | succ n ih =>
    rw [actLoop]
    cases mkAct next a with
    | none => rfl
    | some r =>
      rw [Option.bind_some, ih]
      rfl

theorem unitList_some {n : Nat} {u : Units} (h : UnitsOk n u) (inp : Nat) : ∃ hid, unitList n u = some hid ∧ hid.length = n ∧
    (∀ l ≤ n, (inp :: hid).getD l 0 = unitsOf inp u l) ∧ (inp :: hid).getLastD 0 = unitsOf inp u n := by
  have key : ∀ hid : List Nat, hid.length = n → (∀ l ≤ n, (inp :: hid).getD l 0 = unitsOf inp u l) → (inp :: hid).getLastD 0 = unitsOf inp u n := by
    intro hid hl hu
    rw [← hu n (le_refl _), List.getLastD_eq_getLast?, List.getLast?_eq_getElem?, ← List.getD_eq_getElem?_getD]
    simp [hl]
  cases u with
  | same d =>
    refine ⟨List.replicate n d, rfl, by simp, ?_, key _ (by simp) ?_⟩ <;>
    · intro l hl
      cases l with
      | zero => rfl
      | succ l =>
        show (List.replicate n d).getD l 0 = d
        rw [List.getD_eq_getElem?_getD]
        rw [List.getElem?_replicate, if_pos (by omega)]
        rfl
  | list ds =>
    have h : ds.length = n := h
    refine ⟨ds, by simp [unitList, h], h, ?_, key _ h ?_⟩ <;>
    · intro l _
      cases l <;> rfl

theorem unitList_none {n : Nat} {u : Units} (h : ¬ UnitsOk n u) : unitList n u = none := by
  cases u with
  | same d => exact absurd trivial h
  | list ds => exact if_neg (fun e => h e.symm)

/-- the layers fit together -/
theorem seq_dims {dim : X → Nat} {f : Part → X → X} (hf : Shapes dim f) (n : Nat) (u : Nat → Nat) (bn : Bool) (act : Option (ActMod × Nat)) (rate : Bool) (x : X) :
    (dim x = u 0 → ∃ y, Seq' dim f (hiddenSpec n u bn act rate) x = some y ∧ dim y = u n) ∧
    (0 < n → dim x ≠ u 0 → Seq' dim f (hiddenSpec n u bn act rate) x = none) := by
  have one : ∀ (l i o : Nat) (x : X), (dim x = i → ∃ y, Seq' dim f ((if bn then [Part.bn l i] else []) ++ [.fc l i o] ++ act.toList.map .act ++
      (if rate then [.drop l] else [])) x = some y ∧ dim y = o) ∧
      (dim x ≠ i → Seq' dim f ((if bn then [Part.bn l i] else []) ++ [.fc l i o] ++ act.toList.map .act ++ (if rate then [.drop l] else [])) x = none) := by
    intro l i o x
    obtain ⟨h1, h2⟩ := hf
    constructor
    · intro hx
      cases bn <;> cases act <;> cases rate <;> simp [Seq', applyPart, hx, h1, h2]
    · intro hx
      cases bn <;> cases act <;> cases rate <;> simp [Seq', applyPart, hx]
  constructor
  · intro hx
    induction n with
    | zero => exact ⟨x, rfl, hx⟩
    | succ n ih =>
      obtain ⟨y, h1, h2⟩ := ih
      obtain ⟨z, h3, h4⟩ := (one n (u n) (u (n + 1)) y).1 h2
      refine ⟨z, ?_, h4⟩
      unfold hiddenSpec
      rw [List.range_succ, List.flatMap_append, seq_append]
      show (Seq' dim f (hiddenSpec n u bn act rate) x).bind _ = _
      rw [h1, Option.bind_some]
      simpa using h3
  · intro hn hx
    obtain ⟨m, rfl⟩ : ∃ m, n = m + 1 := ⟨n - 1, by omega⟩
    unfold hiddenSpec
    rw [List.range_succ_eq_map, List.flatMap_cons, seq_append, (one 0 (u 0) (u 1) x).2 hx]
    rfl

theorem out_dims {dim : X → Nat} {f : Part → X → X} (hf : Shapes dim f) (n i o : Nat) (bn : Bool) (act : Option (ActMod × Nat)) (x : X) :
    (dim x = i → ∃ y, Seq' dim f (outputSpec n i o bn act) x = some y ∧ dim y = o) ∧ (dim x ≠ i → Seq' dim f (outputSpec n i o bn act) x = none) := by
  obtain ⟨h1, h2⟩ := hf
  unfold outputSpec
  constructor
  · intro hx
    cases bn <;> cases act <;> simp [Seq', applyPart, hx, h1, h2]
  · intro hx
    cases bn <;> cases act <;> simp [Seq', applyPart, hx]

/-- the constructor of `FCNetV1`: the list of layers that its attributes hold -/
theorem fc_init (a : FCArgs) (net : FCNet) (h : fcInit a = some net) : ∃ ha oa : Option (ActMod × Nat), ∃ hid : List Nat, 1 ≤ a.numHid ∧
    ActOk a.hidAct (ha.map Prod.fst) ∧ ActOk a.outAct (oa.map Prod.fst) ∧ UnitsOk a.numHid a.hid ∧
    net.numHid = a.numHid ∧ net.useBn = a.useBn ∧ net.rate = a.rate ∧ net.noOut = a.noOut ∧ net.useOutBn = a.outBn ∧ net.outAct = oa ∧
    net.acts = ha.map (fun m => List.replicate a.numHid m) ∧
    (∀ l < a.numHid, net.fc[l]? = some (.fc l (unitsOf a.inp a.hid l) (unitsOf a.inp a.hid (l + 1)))) ∧
    (a.noOut = false → net.fc[a.numHid]? = some (.fc a.numHid (unitsOf a.inp a.hid a.numHid) a.out)) ∧
    (a.useBn = false → net.bn = none) ∧
    (a.useBn = true → ∃ b, net.bn = some b ∧ (∀ l < a.numHid, b[l]? = some (.bn l (unitsOf a.inp a.hid l))) ∧
      (a.noOut = false → b[a.numHid]? = some (.bn a.numHid (unitsOf a.inp a.hid a.numHid)))) ∧
    (a.rate = true → ∃ b, net.drop = some b ∧ ∀ l < a.numHid, b[l]? = some (.drop l)) ∧
    net.outDropM.isSome = (!a.noOut && a.outDrop && a.rate) := by
  unfold fcInit at h
  split at h
  · cases h
  rename_i hn
  rw [Option.bind_eq_some_iff] at h
  obtain ⟨⟨oa, k⟩, hoa, h⟩ := h
  by_cases hu : UnitsOk a.numHid a.hid
  swap
  · rw [unitList_none hu] at h; cases h
  obtain ⟨hid, h1, h2, h3, h4⟩ := unitList_some hu a.inp
  rw [h1, Option.bind_some] at h
  dsimp only at h
  rw [Option.map_eq_some_iff] at h
  obtain ⟨acts, hacts, h⟩ := h
  obtain ⟨n, hn'⟩ : ∃ n, a.numHid = n + 1 := ⟨a.numHid - 1, by omega⟩
  obtain ⟨ha, e1, e2⟩ : ∃ ha : Option (ActMod × Nat), ActOk a.hidAct (ha.map Prod.fst) ∧ acts = ha.map (fun m => List.replicate a.numHid m) := by
    cases hh : a.hidAct with
    | none => rw [hh] at hacts; cases hacts; exact ⟨none, rfl, rfl⟩
    | some x =>
      rw [hh] at hacts
      have hacts : (actLoop a.numHid k x).map some = some acts := hacts
      rw [hn', actLoop_eq, Option.map_map, Option.map_eq_some_iff] at hacts
      obtain ⟨⟨⟨m, i⟩, j⟩, g1, g2⟩ := hacts
      refine ⟨some (m, i), mkAct_ok g1, ?_⟩
      rw [hn']; exact g2.symm
  have g1 : ∀ l < a.numHid, ((List.range a.numHid).map (fun i => Part.fc i ((a.inp :: hid).getD i 0) ((a.inp :: hid).getD (i + 1) 0)))[l]? =
      some (.fc l (unitsOf a.inp a.hid l) (unitsOf a.inp a.hid (l + 1))) := by
    intro l hl
    rw [List.getElem?_map, List.getElem?_range hl, Option.map_some, h3 l (by omega), h3 (l + 1) (by omega)]
  have g2 : ∀ l < a.numHid, ((List.range a.numHid).map (fun i => Part.bn i ((a.inp :: hid).getD i 0)))[l]? = some (.bn l (unitsOf a.inp a.hid l)) := by
    intro l hl
    rw [List.getElem?_map, List.getElem?_range hl, Option.map_some, h3 l (by omega)]
  have g3 : ∀ l < a.numHid, ((List.range a.numHid).map Part.drop)[l]? = some (.drop l) := by
    intro l hl
    rw [List.getElem?_map, List.getElem?_range hl, Option.map_some]
  have g4 : (a.inp :: hid).getLastD 0 = unitsOf a.inp a.hid a.numHid := h4
  have lenfc : ((List.range a.numHid).map (fun i => Part.fc i ((a.inp :: hid).getD i 0) ((a.inp :: hid).getD (i + 1) 0))).length = a.numHid := by simp
  have lenbn : ((List.range a.numHid).map (fun i => Part.bn i ((a.inp :: hid).getD i 0))).length = a.numHid := by simp
  generalize (List.range a.numHid).map (fun i => Part.fc i ((a.inp :: hid).getD i 0) ((a.inp :: hid).getD (i + 1) 0)) = L1 at h g1 lenfc
  generalize (List.range a.numHid).map (fun i => Part.bn i ((a.inp :: hid).getD i 0)) = L2 at h g2 lenbn
  generalize (List.range a.numHid).map Part.drop = L3 at h g3
  generalize (a.inp :: hid).getLastD 0 = last at h g4
  subst g4
  refine ⟨ha, oa, hid, by omega, e1, mkAct?_ok hoa, hu, ?_⟩
  subst e2
  cases ho : a.noOut
  · rw [ho] at h
    simp only [Bool.false_eq_true, if_false] at h
    subst h
    refine ⟨rfl, rfl, rfl, rfl, rfl, rfl, rfl, ?_, ?_, ?_, ?_, ?_, ?_⟩
    · intro l hl
      dsimp only
      rw [List.getElem?_append_left (by omega)]
      exact g1 l hl
    · intro _
      dsimp only
      rw [List.getElem?_append_right (by omega), lenfc]
      simp
    · intro hb; simp [hb]
    · intro hb
      refine ⟨L2 ++ [.bn a.numHid (unitsOf a.inp a.hid a.numHid)], by simp [hb], ?_, ?_⟩
      · intro l hl
        rw [List.getElem?_append_left (by omega)]
        exact g2 l hl
      · intro _
        rw [List.getElem?_append_right (by omega), lenbn]
        simp
    · intro hr
      exact ⟨L3, by simp [hr], g3⟩
    · cases a.outDrop <;> cases a.rate <;> rfl
  · rw [ho] at h
    simp only [if_true] at h
    subst h
    refine ⟨rfl, rfl, rfl, rfl, rfl, rfl, rfl, g1, by simp, ?_, ?_, ?_, ?_⟩
    · intro hb; simp [hb]
    · intro hb
      exact ⟨L2, by simp [hb], g2, by simp⟩
    · intro hr
      exact ⟨L3, by simp [hr], g3⟩
    · rfl

/-- one hidden layer -/
theorem fc_hidden {dim : X → Nat} {f : Part → X → X} {net : FCNet} {n : Nat} {u : Nat → Nat} {bn rate : Bool} {ha : Option (ActMod × Nat)}
    (h1 : net.useBn = bn) (h2 : net.rate = rate) (h3 : net.acts = ha.map (fun m => List.replicate n m)) (h4 : ∀ l < n, net.fc[l]? = some (.fc l (u l) (u (l + 1))))
    (h5 : bn = true → ∃ b, net.bn = some b ∧ ∀ l < n, b[l]? = some (.bn l (u l))) (h6 : rate = true → ∃ b, net.drop = some b ∧ ∀ l < n, b[l]? = some (.drop l))
    {l : Nat} (hl : l < n) (x : X) :
    fcHidden dim f net x l = Seq' dim f ((if bn then [Part.bn l (u l)] else []) ++ [.fc l (u l) (u (l + 1))] ++ ha.toList.map .act ++ (if rate then [.drop l] else [])) x := by
  have e4 : ∀ x, applyAt dim f (some net.fc) l x = applyPart dim f (.fc l (u l) (u (l + 1))) x := by
    intro x; unfold applyAt; rw [Option.bind_some, h4 l hl]; rfl
  have e5 : ∀ x, (if net.useBn then applyAt dim f net.bn l x else some x) = Seq' dim f (if bn then [Part.bn l (u l)] else []) x := by
    intro x
    rw [h1]
    cases hb : bn
    · rfl
    · obtain ⟨b, e, e'⟩ := h5 hb
      simp only [if_true, seq_one]
      unfold applyAt
      rw [e, Option.bind_some, e' l hl, Option.bind_some]
  have e6 : ∀ x, (if net.rate then applyAt dim f net.drop l x else some x) = Seq' dim f (if rate then [.drop l] else []) x := by
    intro x
    rw [h2]
    cases hb : rate
    · rfl
    · obtain ⟨b, e, e'⟩ := h6 hb
      simp only [if_true, seq_one]
      unfold applyAt
      rw [e, Option.bind_some, e' l hl, Option.bind_some]
  have e7 : ∀ x, applyAct dim f net.acts l x = Seq' dim f (ha.toList.map .act) x := by
    intro x
    rw [h3]
    cases ha with
    | none => rfl
    | some m =>
      show ((List.replicate n m)[l]?).bind _ = Seq' dim f [.act m] x
      rw [List.getElem?_replicate, if_pos hl, seq_one]
      rfl
  have e8 : ∀ x, applyAt dim f (some net.fc) l x = Seq' dim f [.fc l (u l) (u (l + 1))] x := by
    intro x; rw [e4, seq_one]
  unfold fcHidden
  rw [seq_append, seq_append, seq_append, e5]
  cases Seq' dim f (if bn then [Part.bn l (u l)] else []) x with
  | none => rfl
  | some y =>
    rw [Option.bind_some, Option.bind_some, e8]
    cases Seq' dim f [.fc l (u l) (u (l + 1))] y with
    | none => rfl
    | some z =>
      rw [Option.bind_some, Option.bind_some, e7]
      cases Seq' dim f (ha.toList.map .act) z with
      | none => rfl
      | some w => rw [Option.bind_some, Option.bind_some, e6]

theorem bind_id {α : Type} (o : Option α) : o.bind (fun x => some x) = o := by cases o <;> rfl

/-- all hidden layers -/
theorem fc_hiddens {dim : X → Nat} {f : Part → X → X} {net : FCNet} {u : Nat → Nat} {bn rate : Bool} {ha : Option (ActMod × Nat)} {n : Nat}
    (h : ∀ l < n, ∀ x, fcHidden dim f net x l =
      Seq' dim f ((if bn then [Part.bn l (u l)] else []) ++ [.fc l (u l) (u (l + 1))] ++ ha.toList.map .act ++ (if rate then [.drop l] else [])) x) :
    ∀ m ≤ n, ∀ x, (List.range m).foldlM (fcHidden dim f net) x = Seq' dim f (hiddenSpec m u bn ha rate) x := by
  intro m
  induction m with
  | zero => intro _ x; rfl
  | succ m ih =>
    intro hm x
    unfold hiddenSpec
    rw [List.range_succ, List.flatMap_append, seq_append, List.foldlM_append, ih (by omega) x]
    show (Seq' dim f (hiddenSpec m u bn ha rate) x).bind _ = (Seq' dim f (hiddenSpec m u bn ha rate) x).bind _
    cases Seq' dim f (hiddenSpec m u bn ha rate) x with
    | none => rfl
    | some y =>
      rw [Option.bind_some, Option.bind_some, List.foldlM_cons, h m (by omega) y]
      simp only [List.flatMap_cons, List.flatMap_nil, List.append_nil, List.foldlM_nil]
      exact bind_id _

/-- the output layer -/
theorem fc_output {dim : X → Nat} {f : Part → X → X} {net : FCNet} {n i o : Nat} {bn : Bool} {oa : Option (ActMod × Nat)}
    (h0 : net.numHid = n) (h1 : bn = false → net.bn = none) (h2 : bn = true → ∃ b, net.bn = some b ∧ b[n]? = some (.bn n i)) (h3 : net.fc[n]? = some (.fc n i o))
    (h4 : net.outAct = oa) (h5 : net.outDropM = none) (x : X) : fcOutput dim f net x = Seq' dim f (outputSpec n i o bn oa) x := by
  have e1 : (if net.bn.isSome then applyAt dim f net.bn net.numHid x else some x) = Seq' dim f (if bn then [Part.bn n i] else []) x := by
    cases hb : bn
    · rw [h1 hb]; rfl
    · obtain ⟨b, g1, g2⟩ := h2 hb
      rw [g1, h0]
      simp only [Option.isSome_some, if_true, seq_one]
      unfold applyAt
      rw [Option.bind_some, g2, Option.bind_some]
  have e2 : ∀ x, applyAt dim f (some net.fc) net.numHid x = Seq' dim f [.fc n i o] x := by
    intro x; unfold applyAt; rw [Option.bind_some, h0, h3, seq_one, Option.bind_some]
  have e3 : ∀ x, applyOutAct dim f net.outAct x = Seq' dim f (oa.toList.map .act) x := by
    intro x
    rw [h4]
    cases oa with
    | none => rfl
    | some m => show _ = Seq' dim f [.act m] x; rw [seq_one]; rfl
  unfold fcOutput outputSpec
  rw [seq_append, seq_append, e1]
  cases Seq' dim f (if bn then [Part.bn n i] else []) x with
  | none => rfl
  | some y =>
    rw [Option.bind_some, Option.bind_some, e2]
    cases Seq' dim f [.fc n i o] y with
    | none => rfl
    | some z =>
      rw [Option.bind_some, Option.bind_some, e3, h5]
      exact bind_id _

/-- C161, `FCNetV1`: the constructor accepts exactly the documented arguments. -/
theorem C161_fc_accepts (a : FCArgs) : (∃ net, fcInit a = some net) ↔ 1 ≤ a.numHid ∧ UnitsOk a.numHid a.hid ∧ (∃ m, ActOk a.hidAct m) ∧ ∃ m, ActOk a.outAct m := by
  constructor
  · rintro ⟨net, h⟩
    obtain ⟨ha, oa, hid, h1, h2, h3, h4, _⟩ := fc_init a net h
    exact ⟨h1, h4, ⟨_, h2⟩, _, h3⟩
  · rintro ⟨h1, h2, ⟨m1, h3⟩, m2, h4⟩
    unfold fcInit
    rw [if_neg (by omega)]
    cases hoa : mkAct? 0 a.outAct with
    | none => exact absurd h4 (mkAct?_none hoa m2)
    | some oa =>
      obtain ⟨hid, e1, _⟩ := unitList_some h2 a.inp
      rw [Option.bind_some, e1, Option.bind_some]
      cases hh : a.hidAct with
      | none => exact ⟨_, rfl⟩
      | some x =>
        obtain ⟨n, hn⟩ : ∃ n, a.numHid = n + 1 := ⟨a.numHid - 1, by omega⟩
        rw [hh] at h3
        cases hx : mkAct oa.2 x with
        | none => exact absurd h3 (mkAct_none hx m1)
        | some r =>
          have : hidActs a.numHid oa.2 (some x) = some (some (List.replicate (n + 1) r.1)) := by
            show (actLoop a.numHid oa.2 x).map some = _
            rw [hn, actLoop_eq, hx]; rfl
          rw [this]
          exact ⟨_, rfl⟩

/-- C161, `FCNetV1`: without output batch normalisation and output dropout, the network computes the documented layers in order: for every hidden layer batch
normalisation, linear, activation, dropout; then batch normalisation, linear, activation of the output. A batch with the right number of features gives a batch with
the number of output units (of the last hidden layer, without output layer), any other batch is an error. The activation module is the one asked for, and all hidden
layers share one module. -/
theorem C161_fc {dim : X → Nat} {f : Part → X → X} (a : FCArgs) (net : FCNet) (h : fcInit a = some net) (hbn : a.outBn = false)
    (hod : a.noOut = true ∨ a.outDrop = false ∨ a.rate = false) :
    ∃ ha oa : Option (ActMod × Nat), ActOk a.hidAct (ha.map Prod.fst) ∧ ActOk a.outAct (oa.map Prod.fst) ∧ net.acts = ha.map (fun m => List.replicate a.numHid m) ∧
      (∀ x, fcForward dim f net x = Seq' dim f (hiddenSpec a.numHid (unitsOf a.inp a.hid) a.useBn ha a.rate ++
        (if a.noOut then [] else outputSpec a.numHid (unitsOf a.inp a.hid a.numHid) a.out a.useBn oa)) x) ∧
      (Shapes dim f → ∀ x, (dim x = a.inp → ∃ y, fcForward dim f net x = some y ∧ dim y = if a.noOut then unitsOf a.inp a.hid a.numHid else a.out) ∧
        (dim x ≠ a.inp → fcForward dim f net x = none)) := by
  obtain ⟨ha, oa, hid, h1, h2, h3, h4, e1, e2, e3, e4, e5, e6, e7, e8, e9, e10, e11, e12, e13⟩ := fc_init a net h
  have hid' : ∀ l < a.numHid, ∀ x, fcHidden dim f net x l = _ := fun l hl x =>
    fc_hidden (dim := dim) (f := f) (u := unitsOf a.inp a.hid) e2 e3 e7 e8 (fun hb => by obtain ⟨b, q1, q2, _⟩ := e11 hb; exact ⟨b, q1, q2⟩) e12 hl x
  have hs := fc_hiddens hid' a.numHid (le_refl _)
  have fwd : ∀ x, fcForward dim f net x = Seq' dim f (hiddenSpec a.numHid (unitsOf a.inp a.hid) a.useBn ha a.rate ++
        (if a.noOut then [] else outputSpec a.numHid (unitsOf a.inp a.hid a.numHid) a.out a.useBn oa)) x := by
    intro x
    unfold fcForward
    rw [e1, hs, e4, e5, hbn, seq_append]
    cases Seq' dim f (hiddenSpec a.numHid (unitsOf a.inp a.hid) a.useBn ha a.rate) x with
    | none => rfl
    | some y =>
      rw [Option.bind_some, Option.bind_some]
      cases hn : a.noOut with
      | true => rfl
      | false =>
        have hd : net.outDropM = none := by
          rw [hn] at e13
          cases hq : net.outDropM with
          | none => rfl
          | some p =>
            rw [hq] at e13
            rcases hod with q | q | q
            · rw [hn] at q; cases q
            · rw [q] at e13; cases e13
            · rw [q] at e13; simp at e13
        simp only [Bool.false_eq_true, if_false]
        rw [fc_output e1 e10 (fun hb => by obtain ⟨b, q1, _, q2⟩ := e11 hb; exact ⟨b, q1, q2 hn⟩) (e9 hn) e6 hd y]
        cases Seq' dim f (outputSpec a.numHid (unitsOf a.inp a.hid a.numHid) a.out a.useBn oa) y <;> rfl
  refine ⟨ha, oa, h2, h3, e7, fwd, fun hf x => ?_⟩
  have hdim := seq_dims hf a.numHid (unitsOf a.inp a.hid) a.useBn ha a.rate x
  have hu0 : unitsOf a.inp a.hid 0 = a.inp := by cases a.hid <;> rfl
  rw [hu0] at hdim
  rw [fwd, seq_append]
  constructor
  · intro hx
    obtain ⟨y, q1, q2⟩ := hdim.1 hx
    rw [q1, Option.bind_some]
    cases hn : a.noOut with
    | true => exact ⟨y, rfl, q2⟩
    | false => exact (out_dims hf a.numHid _ a.out a.useBn oa y).1 q2
  · intro hx
    rw [hdim.2 (by omega) hx]; rfl

/-- C161, not so: `use_output_batchnorm`, or output dropout with an output layer, is accepted by the constructor but every call of the network raises. -/
theorem C161_fc_output_raises {dim : X → Nat} {f : Part → X → X} (a : FCArgs) (net : FCNet) (h : fcInit a = some net)
    (hb : a.outBn = true ∨ (a.noOut = false ∧ a.outDrop = true ∧ a.rate = true)) (x : X) : fcForward dim f net x = none := by
  obtain ⟨ha, oa, hid, h1, h2, h3, h4, e1, e2, e3, e4, e5, e6, e7, e8, e9, e10, e11, e12, e13⟩ := fc_init a net h
  unfold fcForward
  cases (List.range net.numHid).foldlM (fcHidden dim f net) x with
  | none => rfl
  | some y =>
    rw [Option.bind_some]
    cases hd : net.outDropM with
    | some p =>
      rw [hd] at e13
      have hn : net.noOut = false := by
        rw [e4]
        cases hn : a.noOut
        · rfl
        · rw [hn] at e13; cases e13
      have : fcOutput dim f net y = none := by
        unfold fcOutput
        rw [hd]
        simp
      rw [hn, this]; rfl
    | none =>
      have hb : net.useOutBn = true := by
        rw [e5]
        rcases hb with q | ⟨q1, q2, q3⟩
        · exact q
        · rw [hd, q1, q2, q3] at e13; cases e13
      rw [hb]
      cases (if net.noOut then some y else fcOutput dim f net y) <;> rfl

/-- C161, `FFNetV1`: the documented layers in order, with output dropout and output batch normalisation at the end. -/
theorem C161_ff (a : FFArgs) (layers : List Part) (h : ffInit a = some layers) :
    ∃ ha oa : Option (ActMod × Nat), 1 ≤ a.numLayers ∧ UnitsOk (a.numLayers - 1) a.hid ∧ ActOk a.hidAct (ha.map Prod.fst) ∧ ActOk a.outAct (oa.map Prod.fst) ∧
      layers = hiddenSpec (a.numLayers - 1) (unitsOf a.inp a.hid) a.useBn ha a.rate ++
        outputSpec (a.numLayers - 1) (unitsOf a.inp a.hid (a.numLayers - 1)) a.out a.useBn oa ++
        (if a.outDrop = true ∧ a.rate = true then [.outDrop] else []) ++ (if a.outBn then [.outBn a.out] else []) := by
  unfold ffInit at h
  split at h
  · cases h
  rename_i hn
  rw [Option.bind_eq_some_iff] at h
  obtain ⟨⟨oa, k⟩, hoa, h⟩ := h
  rw [Option.bind_eq_some_iff] at h
  obtain ⟨⟨ha, k'⟩, hha, h⟩ := h
  by_cases hu : UnitsOk (a.numLayers - 1) a.hid
  swap
  · rw [unitList_none hu] at h; cases h
  obtain ⟨hid, h1, h2, h3, h4⟩ := unitList_some hu a.inp
  rw [h1] at h
  have h := (Option.some.inj h).symm
  refine ⟨ha, oa, by omega, hu, mkAct?_ok hha, mkAct?_ok hoa, ?_⟩
  have act : ∀ m, actParts m = m.toList.map Part.act := by intro m; cases m <;> rfl
  have hh : (List.range (a.numLayers - 1)).flatMap (ffHidden a (a.inp :: hid) ha) = hiddenSpec (a.numLayers - 1) (unitsOf a.inp a.hid) a.useBn ha a.rate := by
    unfold hiddenSpec
    apply List.flatMap_congr
    intro l hl
    rw [List.mem_range] at hl
    unfold ffHidden
    rw [h3 l (by omega), h3 (l + 1) (by omega), act]
  rw [h]
  dsimp only
  rw [hh, h4, act]
  unfold outputSpec
  simp only [List.append_assoc, Bool.and_eq_true]

/-- C161, `FFNetV1`: the constructor accepts exactly the documented arguments. -/
theorem C161_ff_accepts (a : FFArgs) : (∃ ls, ffInit a = some ls) ↔ 1 ≤ a.numLayers ∧ UnitsOk (a.numLayers - 1) a.hid ∧ (∃ m, ActOk a.hidAct m) ∧ ∃ m, ActOk a.outAct m := by
  constructor
  · rintro ⟨net, h⟩
    obtain ⟨ha, oa, h1, h2, h3, h4, _⟩ := C161_ff a net h
    exact ⟨h1, h2, ⟨_, h3⟩, _, h4⟩
  · rintro ⟨h1, h2, ⟨m1, h3⟩, m2, h4⟩
    unfold ffInit
    rw [if_neg (by omega)]
    cases hoa : mkAct? 0 a.outAct with
    | none => exact absurd h4 (mkAct?_none hoa m2)
    | some oa =>
      rw [Option.bind_some]
      cases hha : mkAct? oa.2 a.hidAct with
      | none => exact absurd h3 (mkAct?_none hha m1)
      | some ha =>
        obtain ⟨hid, e1, _⟩ := unitList_some h2 a.inp
        rw [Option.bind_some, e1]
        exact ⟨_, rfl⟩

/-- C161, `FFNetV1`: the output of a batch with the right number of features has the number of output units, any other batch is an error. -/
theorem C161_ff_shape {dim : X → Nat} {f : Part → X → X} (hf : Shapes dim f) (a : FFArgs) (layers : List Part) (h : ffInit a = some layers) (x : X) :
    (dim x = a.inp → ∃ y, ffForward dim f layers x = some y ∧ dim y = a.out) ∧ (dim x ≠ a.inp → ffForward dim f layers x = none) := by
  obtain ⟨ha, oa, h1, h2, h3, h4, rfl⟩ := C161_ff a layers h
  rw [seq_foldlM, seq_append, seq_append, seq_append]
  have hu0 : unitsOf a.inp a.hid 0 = a.inp := by cases a.hid <;> rfl
  have hdim := seq_dims hf (a.numLayers - 1) (unitsOf a.inp a.hid) a.useBn ha a.rate x
  rw [hu0] at hdim
  have tail : ∀ z, dim z = a.out → ∃ y, ((Seq' dim f (if a.outDrop = true ∧ a.rate = true then [.outDrop] else []) z).bind
      (Seq' dim f (if a.outBn then [.outBn a.out] else []))) = some y ∧ dim y = a.out := by
    intro z hz
    obtain ⟨g1, g2⟩ := hf
    split <;> split <;> simp [Seq', applyPart, hz, g2]
  constructor
  · intro hx
    obtain ⟨y, q1, q2⟩ := hdim.1 hx
    obtain ⟨z, q3, q4⟩ := (out_dims hf (a.numLayers - 1) _ a.out a.useBn oa y).1 q2
    rw [q1, Option.bind_some, q3, Option.bind_some]
    exact tail z q4
  · intro hx
    rcases Nat.eq_zero_or_pos (a.numLayers - 1) with hz | hz
    · rw [hz]
      have : Seq' dim f (outputSpec 0 (unitsOf a.inp a.hid 0) a.out a.useBn oa) x = none := by
        rw [hu0]; exact (out_dims hf 0 a.inp a.out a.useBn oa x).2 hx
      show (((Seq' dim f (outputSpec 0 (unitsOf a.inp a.hid 0) a.out a.useBn oa) x).bind _).bind _) = none
      rw [this]; rfl
    · rw [hdim.2 hz hx]; rfl

/-- C161: the two classes agree: `FFNetV1` with `n + 1` layers is `FCNetV1` with `n ≥ 1` hidden layers and the same arguments. -/
theorem C161_same {dim : X → Nat} (a : FCArgs) (net : FCNet) (h : fcInit a = some net) (hbn : a.outBn = false) (hno : a.noOut = false)
    (hod : a.outDrop = false ∨ a.rate = false) :
    ∃ layers, ffInit ⟨a.numHid + 1, a.inp, a.hid, a.out, a.hidAct, a.outAct, a.useBn, a.rate, false, a.outDrop⟩ = some layers ∧
      ∀ (g : Part → X → X), (∀ (m : ActMod) i j x, g (.act (m, i)) x = g (.act (m, j)) x) → ∀ x, fcForward dim g net x = ffForward dim g layers x := by
  have acc := (C161_fc_accepts a).1 ⟨net, h⟩
  obtain ⟨layers, hl⟩ := (C161_ff_accepts ⟨a.numHid + 1, a.inp, a.hid, a.out, a.hidAct, a.outAct, a.useBn, a.rate, false, a.outDrop⟩).2
    ⟨by simp, acc.2.1, acc.2.2.1, acc.2.2.2⟩
  refine ⟨layers, hl, ?_⟩
  intro g hg x
  obtain ⟨ha, oa, p1, p2, _, p3, _⟩ := C161_fc (dim := dim) (f := g) a net h hbn (Or.inr hod)
  obtain ⟨ha', oa', _, _, q1, q2, q3⟩ := C161_ff _ layers hl
  have uniq : ∀ {a : Option ActIn} {m m' : Option ActMod}, ActOk a m → ActOk a m' → m = m' := by
    intro a m m' h1 h2
    cases a with
    | none => exact Eq.trans (show m = none from h1) (show m' = none from h2).symm
    | some a =>
      cases a with
      | name s =>
        obtain ⟨x, e1, e2⟩ := h1
        obtain ⟨y, e3, e4⟩ := h2
        rw [e2] at e4
        rw [e1, e3, e4]
      | dict d => exact h1.elim
      | obj x i => exact Eq.trans (show m = some x from h1) (show m' = some x from h2).symm
  have act : ∀ {m m' : Option (ActMod × Nat)}, m.map Prod.fst = m'.map Prod.fst → ∀ x, Seq' dim g (m.toList.map .act) x = Seq' dim g (m'.toList.map .act) x := by
    intro m m' e x
    cases m with
    | none => cases m' with
      | none => rfl
      | some _ => cases e
    | some m => cases m' with
      | none => cases e
      | some m' =>
        obtain ⟨m, i⟩ := m
        obtain ⟨m', j⟩ := m'
        cases e
        show Seq' dim g [.act (m, i)] x = Seq' dim g [.act (m, j)] x
        rw [seq_one, seq_one]
        simp only [applyPart]
        rw [hg m i j x]
  have hid : ∀ n x, Seq' dim g (hiddenSpec n (unitsOf a.inp a.hid) a.useBn ha a.rate) x = Seq' dim g (hiddenSpec n (unitsOf a.inp a.hid) a.useBn ha' a.rate) x := by
    intro n
    induction n with
    | zero => intro x; rfl
    | succ n ih =>
      intro x
      unfold hiddenSpec at ih ⊢
      rw [List.range_succ, List.flatMap_append, List.flatMap_append, seq_append, seq_append, ih x]
      congr 1
      funext y
      simp only [List.flatMap_cons, List.flatMap_nil, List.append_nil, seq_append]
      congr 1
      congr 1
      funext z
      exact act (uniq p1 q1) z
  have hq : layers = hiddenSpec a.numHid (unitsOf a.inp a.hid) a.useBn ha' a.rate ++ outputSpec a.numHid (unitsOf a.inp a.hid a.numHid) a.out a.useBn oa' := by
    rw [q3]
    rcases hod with q | q <;> simp [q]
  rw [p3, hno, seq_foldlM, hq, seq_append, seq_append, hid]
  congr 1
  funext y
  unfold outputSpec
  simp only [Bool.false_eq_true, if_false, seq_append]
  congr 1
  funext z
  exact act (uniq p2 q2) z

/-- C161, not so: `get_config` of `FCNetV1` always raises: it reads an attribute `hidden_units` that the constructor never sets. -/
theorem C161_no_config : fcConfig = none := by decide +kernel

/-- a network with two hidden layers -/
def exFC : FCArgs := ⟨2, 20, .list [64, 32], 10, some (.name "relu"), none, true, true, false, false, false⟩

example : ∃ net, fcInit exFC = some net := (C161_fc_accepts exFC).2 ⟨by decide, rfl, ⟨some _, _, rfl, rfl⟩, none, rfl⟩

/-- a batch known by its number of features -/
example : Shapes (X := Nat) id (fun p x => match p with | .fc _ _ o => o | _ => x) := by
  refine ⟨fun _ _ _ _ => rfl, fun p x h => ?_⟩
  cases p <;> first | rfl | exact absurd rfl (h _ _ _)

example : ∃ ls, ffInit ⟨3, 20, .same 64, 10, some (.name "tanh"), some (.name "sigmoid"), false, false, true, true⟩ = some ls :=
  (C161_ff_accepts _).2 ⟨by decide, trivial, ⟨some _, _, rfl, rfl⟩, some _, _, rfl, rfl⟩

end Hyp.Torch
