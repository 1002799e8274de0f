/-
Property C04: the option store.
-/
import Verif.Model.Config
import Verif.Tactics

namespace SeismoStats.Props
open SeismoStats SeismoStats.Config

/-- A call history of the configuration module: `set_option(key, value)` calls.
(`get_option` has no effect.) -/
abbrev ConfigHistory (V : Type*) := List (String × V)

/-- The options after a history of calls, some of which may have raised. -/
def afterHistory {V : Type*} (tt : V) (h : ConfigHistory V) : Options V :=
  h.foldl (fun o c => (setOption o c.1 c.2).1) (initial tt)

/-- Specification: the last value given for `warnings`, `True` if there was none. -/
def lastWarnings {V : Type*} (tt : V) (h : ConfigHistory V) : V :=
  ((h.reverse.find? (fun c => c.1 == "warnings")).map Prod.snd).getD tt

private theorem afterHistory_eq {V : Type*} (tt : V) (h : ConfigHistory V) :
    afterHistory tt h = [("warnings", lastWarnings tt h)] := by
  induction h using List.reverseRecOn with
  | nil => rfl
  | append_singleton l c ih =>
    have : afterHistory tt (l ++ [c]) = (setOption (afterHistory tt l) c.1 c.2).1 := by
      simp [afterHistory]
    rw [this, ih]
    by_cases hc : c.1 = "warnings"
    · simp [setOption, Dict.has, Dict.get?, Dict.set, lastWarnings, hc]
    · have hc' : ¬ "warnings" = c.1 := fun e => hc e.symm
      simp [setOption, Dict.has, Dict.get?, lastWarnings, hc, hc', List.reverse_append]

/-- C04: after every history `get_option` returns the last value set (default
`True`) for the one existing option and raises KeyError for every other key. -/
theorem C04_get_option {V : Type*} (tt : V) (h : ConfigHistory V) (key : String) :
    getOption (afterHistory tt h) key =
      if key = "warnings" then .ok (lastWarnings tt h) else .error .keyError := by
  rw [afterHistory_eq, getOption]
  by_cases hk : key = "warnings"
  · simp [Dict.get?, hk]
  · have hk' : ¬ "warnings" = key := fun e => hk e.symm
    simp [Dict.get?, hk, hk']

/-- C04: `set_option` raises KeyError exactly for unknown keys, and then leaves
all options as they were. -/
theorem C04_set_option {V : Type*} (tt : V) (h : ConfigHistory V) (key : String) (v : V) :
    let r := setOption (afterHistory tt h) key v
    (key = "warnings" → r.2 = .ok () ∧ getOption r.1 key = .ok v) ∧
    (key ≠ "warnings" → r.2 = .error .keyError ∧ r.1 = afterHistory tt h) := by
  rw [afterHistory_eq]
  refine ⟨fun hk => ?_, fun hk => ?_⟩
  · simp [setOption, Dict.has, Dict.get?, Dict.set, getOption, hk]
  · have hk' : ¬ "warnings" = key := fun e => hk e.symm
    simp [setOption, Dict.has, Dict.get?, hk']

/-- For any option store (also with more keys), setting one option leaves the others alone. -/
theorem C04_isolation {V : Type*} (o : Options V) (k k' : String) (v : V) (h : k ≠ k') :
    getOption (setOption o k v).1 k' = getOption o k' := by
  unfold setOption
  split
  · simp [getOption, Dict.get?_set, h]
  · rfl

example : getOption (afterHistory true [("warnings", false), ("nope", true)]) "warnings"
    = .ok false := by rw [C04_get_option]; decide

end SeismoStats.Props
