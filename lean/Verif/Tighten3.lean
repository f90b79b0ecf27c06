import Verif.Persist.Props
import Verif.Folds.FilesProps
import Verif.Kaldi.QuantProps

/-!
Theorems added because an edited model survived: defaults of the constructors, saving of part lists that fails, size of a compressed matrix.
-/

namespace Hyp.Persist

/-- the documented defaults of the constructor options -/
def defaults : Cls → List (Nm × Opt)
  | .CentWhiten | .CentWhitenUP | .LNorm | .LNormUP => [(.updateMu, .bool true), (.updateT, .bool true)]
  | .PCA => [(.updateMu, .bool true), (.updateT, .bool true), (.pcaDim, .null)]
  | .LDA => [(.ldaDim, .null), (.updateMu, .bool true), (.updateT, .bool true)]
  | .NDA | .NAP | .MVN | .SbSw => []
  | .Gaussianizer => [(.maxVectors, .null)]
  | .NSbSw => [(.K, .num 10), (.alpha, .num 1)]
  | .FRPLDA => [(.xDim, .num 1), (.yDim, .null), (.fullcovW, .bool true), (.updateMu, .bool true), (.updateB, .bool true), (.updateW, .bool true)]
  | .SPLDA => [(.xDim, .num 1), (.yDim, .null), (.fullcovW, .bool true), (.updateMu, .bool true), (.updateV, .bool true), (.updateW, .bool true)]
  | .PLDA => [(.xDim, .num 1), (.yDim, .null), (.zDim, .null), (.floorID, .num (1 / 100000)), (.updateMu, .bool true), (.updateV, .bool true),
      (.updateU, .bool true), (.updateD, .bool true)]
  | .LinearGBE | .LinearGBEUP => [(.updateMu, .bool true), (.updateW, .bool true), (.xDim, .num 1), (.numClasses, .null), (.balance, .bool true),
      (.prior, .null), (.priorBeta, .null), (.priorNu, .null), (.postBeta, .null), (.postNu, .null)]
  | .QScoringHomoGBE => [(.balance, .bool true), (.prior, .null), (.priorN, .null), (.postN, .null)]
  | .LogisticRegression => [(.lambdaReg, .num (1 / 100000)), (.useBias, .bool true), (.biasScaling, .num 1), (.priors, .null)]
  | .BinaryLogisticRegression => [(.lambdaReg, .num (1 / 100000)), (.useBias, .bool true), (.biasScaling, .num 1), (.prior, .num (1 / 2))]
  | .LinearSVMC => [(.useBias, .bool true), (.biasScaling, .num 1), (.balance, .bool true)]
  | .Normal | .NormalDiagCov => [(.xDim, .num 1), (.varFloor, .num (1 / 100000)), (.updateMu, .bool true), (.updateLambda, .bool true)]
  | .GMM | .GMMDiagCov | .GMMTiedDiagCov => [(.xDim, .num 1), (.minN, .num 0), (.updatePi, .bool true), (.varFloor, .num (1 / 1000)), (.updateMu, .bool true),
      (.updateLambda, .bool true)]
  | .GaussCalibration => [(.prior, .num (1 / 2))]

/-- **C117**: a model made without parameters and with some of its options given has those options, and the documented default for the others -/
theorem C117_constructor (c : Cls) (name : Option Hyp.Text.Str) (args : List (Nm × Opt)) :
    ∃ o, ctor c name (fun _ => none) args = some o ∧ o.cls = c ∧ o.name = name ∧ (∀ p, o.par p = none) ∧
      ∀ n v, (n, v) ∈ defaults c → o.opt n = ((args.lookup n).getD v) := by
  have hopt : ∀ n, ctorOpt (desc c) (fun _ => none) args n = some ((args.lookup n).getD (((desc c).dflt.lookup n).getD .null)) := by
    intro n
    unfold ctorOpt
    cases (desc c).dims.lookup n <;> rfl
  refine ⟨_, if_pos ?_, rfl, rfl, fun _ => rfl, ?_⟩
  · rw [List.all_eq_true]
    intro e _
    rw [hopt]; rfl
  · have hd : ∀ e ∈ defaults c, (desc c).dflt.lookup e.1 = some e.2 := by cases c <;> decide +kernel
    intro n v hnv
    dsimp only
    rw [hopt, hd (n, v) hnv]
    rfl

example : ∃ o, ctor .SPLDA none (fun _ => none) [(.updateV, .bool false), (.yDim, .num 20)] = some o ∧ o.opt .updateV = .bool false ∧ o.opt .yDim = .num 20 ∧
    o.opt .updateW = .bool true := by
  obtain ⟨o, h, -, -, -, h1⟩ := C117_constructor .SPLDA none [(.updateV, .bool false), (.yDim, .num 20)]
  exact ⟨o, h, h1 _ _ (by decide +kernel : (Nm.updateV, Opt.bool true) ∈ defaults .SPLDA), h1 _ _ (by decide +kernel : (Nm.yDim, Opt.null) ∈ defaults .SPLDA),
    h1 _ _ (by decide +kernel : (Nm.updateW, Opt.bool true) ∈ defaults .SPLDA)⟩

end Hyp.Persist

namespace Hyp.Folds
open Hyp.Text

/-- **C153**: saving a list with names returns exactly when every part number is an index of the list of names (counted from the end if negative);
otherwise it raises and leaves the lines before the first such part in the file -/
theorem C153_save_returns (l : PList Str) (sep : Char) (ns : List Str) (hn : l.names = some ns) :
    (l.save sep).2 = true ↔ ∀ q ∈ l.key.zip l.part, -(ns.length : Int) ≤ q.2 ∧ q.2 < ns.length := by
  unfold PList.save
  rw [hn]
  have hg : ∀ p : Int, (pyGet ns p).isSome ↔ -(ns.length : Int) ≤ p ∧ p < ns.length := by
    intro p
    unfold pyGet
    split
    · rw [Option.isSome_iff_ne_none, ne_eq, List.getElem?_eq_none_iff]; omega
    · split
      · rw [Option.isSome_iff_ne_none, ne_eq, List.getElem?_eq_none_iff]; omega
      · simp; omega
  induction l.key.zip l.part with
  | nil => simp [partSave]
  | cons q rest ih =>
    obtain ⟨k, p⟩ := q
    rw [partSave]
    refine Iff.trans ?_ (List.forall_mem_cons).symm
    refine Iff.trans ?_ (and_congr_right fun _ => ih)
    have := hg p
    unfold partLine
    dsimp only
    cases hp : pyGet ns p with
    | none => rw [hp] at this; simp only [Option.isSome_none, Bool.false_eq_true, false_iff] at this; simp [this]
    | some nm => rw [hp] at this; simp only [Option.isSome_some, true_iff] at this; simp [this]

example : (PList.save (⟨["a".toList, "b".toList], [0, 5], some ["t".toList], none⟩ : PList Str) ' ') = ("a 0t\n".toList, false) := by decide +kernel

end Hyp.Folds

namespace Hyp.Kaldi.Quant
variable {K : Type} [Field K] [LinearOrder K] [IsStrictOrderedRing K] [FloorRing K]

/-- **C26**: a compressed matrix has the size of the matrix, whatever the method -/
theorem C26_shape (m : Method) (cols : Nat) (rows : List (List K)) (c : CMat K) (h : compress m cols rows = some c) : c.rows = rows.length ∧ c.cols = cols := by
  unfold compress at h
  simp only [Option.bind_eq_bind, Option.bind_eq_some_iff] at h
  obtain ⟨⟨mn, rg⟩, -, h⟩ := h
  dsimp only at h
  split at h
  · simp only [Option.pure_def, Option.some.injEq] at h; subst h; exact ⟨rfl, rfl⟩
  · split at h <;> (simp only [Option.pure_def, Option.some.injEq] at h; subst h; exact ⟨rfl, rfl⟩)

end Hyp.Kaldi.Quant
