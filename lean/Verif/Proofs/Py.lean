/-
Lemmas about calls that may raise.
-/
import Verif.Model.Base
import Mathlib.Data.List.Forall2

namespace SeismoStats

theorem mapM_ok_iff {α β : Type} (f : α → Py β) (l : List α) (r : List β) :
    l.mapM f = .ok r ↔ List.Forall₂ (fun a b => f a = .ok b) l r := by
  induction l generalizing r with
  | nil =>
    rw [List.mapM_nil]
    constructor
    · intro h; cases h; exact .nil
    · intro h; cases h; rfl
  | cons a l ih =>
    rw [List.mapM_cons]
    cases hf : f a with
    | error e =>
      constructor
      · intro h; cases h
      · intro h; cases h with | cons h1 h2 => rw [hf] at h1; cases h1
    | ok b =>
      simp only [bind, Except.bind]
      cases hm : (l.mapM f : Py (List β)) with
      | error e =>
        constructor
        · intro h; cases h
        · intro h
          cases h with
          | cons h1 h2 => rw [(ih _).2 h2] at hm; cases hm
      | ok bs =>
        constructor
        · intro h
          cases h
          exact .cons hf ((ih bs).1 hm)
        · intro h
          cases h with
          | cons h1 h2 =>
            rw [hf] at h1; cases h1
            rw [(ih _).2 h2] at hm; cases hm
            rfl

end SeismoStats
