import Verif.Train.Runs
import Mathlib.Data.Rat.Floor

/-! Concrete instances for C136: a chain of two scripts on data that are one number. -/

namespace Hyp.Train
open Hyp.Text Hyp.H5 Hyp.Persist

/-- files of integers; every transform with a mean subtracts it. -/
def exE : Env ℚ where
  rd := fun x => (⌊x⌋ : ℚ)
  pr := fun k par x => some (if P.mu ∈ params k then x - (((par .mu).bind (fun a => a.data.head?)).getD 0) else x)

/-- the fit: the mean of the data, and ones. -/
def exFit (o : Obj) (x : ℚ) : Option Obj :=
  some { o with par := fun p => if p = .mu then some ⟨[1], [x]⟩ else some ⟨[1, 1], [1]⟩ }

/-- a new model. -/
def exNew (k : Cls) (n : Str) : Obj := ⟨k, some n, fun _ => none, fun _ => .null⟩

/-- train-mvn.py. -/
def exJ1 : Job ℚ := ⟨.other, 5 / 2, none, none, some ['m', 'v', 'n'], exNew .MVN ['m', 'v', 'n'], exFit, true, true, ['d', '/', '1']⟩

/-- train-cw.py after it. -/
def exJ2 : Job ℚ := ⟨.cwLnorm, 19 / 2, some ['d', '/', '1'], none, some ['c', 'w'], exNew .LNorm ['c', 'w'], exFit, true, true, ['d', '/', '2']⟩

theorem exRd : ∀ x, exE.rd (exE.rd x) = exE.rd x := by intro x; simp [exE]

theorem exPr : ∀ k par par', (∀ p ∈ params k, par p = par' p) → exE.pr k par = exE.pr k par' := by
  intro k par par' h
  funext x
  simp only [exE]
  by_cases hm : P.mu ∈ params k
  · rw [if_pos hm, if_pos hm, h _ hm]
  · rw [if_neg hm, if_neg hm]

theorem exFitted (k : Cls) (n : Str) (hk : k ∈ [Cls.MVN, .LNorm]) (x : ℚ) (m : Obj) (h : exFit (exNew k n) x = some m) :
    Fitted m ∧ m.name = some n := by
  have := Option.some.inj h
  subst this
  refine ⟨⟨?_, ?_, ?_⟩, rfl⟩
  · simp at hk; rcases hk with rfl | rfl <;> simp [exNew, transformClasses]
  · intro p _
    show (if p = .mu then some _ else some _) ≠ none
    split <;> simp
  · intro a p ax hm
    simp at hk
    rcases hk with rfl | rfl <;> simp [exNew, fromShape] at hm

theorem exChain : Chain [exJ1, exJ2] := by
  refine ⟨?_, ?_, ?_, ?_⟩
  · intro j hj; simp at hj; rcases hj with rfl | rfl <;> rfl
  · intro j hj; simp at hj; rcases hj with rfl | rfl <;> exact ⟨rfl, rfl⟩
  · intro j hj; simp at hj; subst hj; rfl
  · intro k i j h1 h2
    have : k = 0 := by
      by_contra hk
      rw [List.getElem?_eq_none (by simp; omega)] at h2
      cases h2
    subst this
    simp at h1 h2
    subst h1 h2
    rfl

/-- the chain runs, by the theorem. -/
example : ∃ d', runAll exE (fun _ => none) [exJ1, exJ2] = some d' := by
  refine C136_chain_runs exE exRd exPr ?_ (fun _ => none) [exJ1, exJ2] exChain (fun j => (j.name).getD []) ?_ ?_ ?_ ?_
  · intro t x _
    exact ⟨_, rfl⟩
  · intro i hi x
    simp at hi
    rcases hi with rfl | rfl
    · exact ⟨_, rfl, exFitted .MVN ['m', 'v', 'n'] (by simp) x _ rfl⟩
    · exact ⟨_, rfl, exFitted .LNorm ['c', 'w'] (by simp) x _ rfl⟩
  · intro i hi; simp at hi; rcases hi with rfl | rfl <;> decide
  · intro i hi; simp at hi; rcases hi with rfl | rfl <;> exact ⟨by decide, by decide, by decide, by decide⟩
  · decide

/-- what is in the last file: the mean 5/2 is 2 in the file; the second script saw 19/2 - 2 = 15/2, and its mean is 7 in the file. -/
example : ((runAll exE (fun _ => none) [exJ1, exJ2]).bind (fun d => (d ['d', '/', '2']).bind lload)).map (fun l => l.ts.map (fun t => (t.cls, t.name, t.par .mu))) =
    some [(.MVN, some ['m', 'v', 'n'], some ⟨[1], [2]⟩), (.LNorm, some ['c', 'w'], some ⟨[1], [7]⟩)] := by decide +kernel

/-- the same name twice raises. -/
example : (runAll exE (fun _ => none) [exJ1, { exJ2 with fresh := exNew .LNorm ['m', 'v', 'n'] }]).isNone = true := by decide +kernel

/-- going on from the list: the transform with the name. -/
example : ((runAll exE (fun _ => none) [exJ1, exJ2]).bind (fun d => loadModel d { exJ2 with input := some ['d', '/', '2'], name := some ['m', 'v', 'n'] })).map
    (fun t => (t.cls, t.par .mu)) = some (.MVN, some ⟨[1], [2]⟩) := by decide +kernel

end Hyp.Train
