/-
Model of the public attributes of the estimator objects as a user sees them between calls: assignments to b- and a-value estimators
(seismostats/analysis/bvalue/base.py:246-301, avalue/base.py:186-268) and what is read afterwards.
-/
import Verif.Model.BValue
import Verif.Model.AValue

namespace SeismoStats
noncomputable section

namespace BValue

/-- One action of the user: a call of `calculate` (with the setting of the option 'warnings'), or an assignment. -/
inductive Step where
  | call (warn : Bool) (a : Args)
  | assign (x : Assign)

/-- The object after one action. -/
def step (c : Cls) (s : State) : Step → State
  | .call warn a => (calculate c warn s a).1
  | .assign x => x.apply s

/-- The object after a sequence of actions. -/
def runSteps (c : Cls) (l : List Step) : State := l.foldl (step c) State.init

/-- bvalue/more_positive.py:159-168: `func` of the bootstrap when weights may have been assigned: `self._original_weights[idx]` raises TypeError when there
are no such weights, and IndexError when they are too few. Without assignments this is `resampleB` (C85_bootstrap_unassigned). -/
def resampleAssigned (s : State) (idx : List ℕ) : Py (Fl ℝ) :=
  match s.weights, s.origWeights with
  | some _, none => .error .typeError
  | some _, some w => match gather w (idx.insertionSort (· ≤ ·)) with
    | .error e => .error e
    | .ok _ => resampleB s idx
  | none, _ => resampleB s idx

/-- bvalue/more_positive.py:151-184 `std` of `BMorePositiveBValueEstimator` for objects whose weights may have been assigned. -/
def stdAssigned (ω : ℕ → List (List ℕ)) (s : State) : Py (Fl ℝ) :=
  match s.b with
  | none => .error .attributeError
  | some _ => bootstrapStd (List.range (s.origMags.getD []).length) (resampleAssigned s) (ω (s.origMags.getD []).length)

end BValue

end
end SeismoStats
