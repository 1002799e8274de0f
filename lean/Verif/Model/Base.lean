/-
Shared vocabulary of the model: Python exceptions as values, numpy's extended
floating point results, Python dictionaries.
-/
import Mathlib.Algebra.Order.Field.Basic
import Mathlib.Data.List.Basic

namespace SeismoStats

/-- Kinds of Python exceptions raised by the modelled code. Messages are not modelled. -/
inductive PyErr where
  | valueError | indexError | attributeError | keyError | typeError
  | zeroDivision | assertionError | unboundLocal
  deriving DecidableEq, Repr

/-- Deterministic Python call: a value or an exception. -/
abbrev Py (α : Type*) := Except PyErr α

/-- A numpy scalar result: finite, NaN or infinite. Signed zeros are not
distinguished (simplification). -/
inductive Fl (K : Type*) where
  | fin (x : K) | nan | pinf | ninf
  deriving DecidableEq, Repr

namespace Fl
variable {K : Type*}

/-- Apply a total, finite-valued, sign preserving function with the usual
propagation: used only for multiplication/division by a positive constant. -/
def scalePos [Mul K] (c : K) : Fl K → Fl K
  | fin x => fin (c * x)
  | nan => nan
  | pinf => pinf
  | ninf => ninf

/-- numpy `isfinite`. -/
def isFin : Fl K → Bool
  | fin _ => true
  | _ => false

/-- numpy `1 / x` for a finite `x`: `1/0 = inf` (a warning, not an error, for
numpy scalars; negative zero is not distinguished). -/
def inv [DivisionRing K] [DecidableEq K] (x : K) : Fl K :=
  if x = 0 then pinf else fin (1 / x)

end Fl

/-- Python dictionaries with string keys: an association list in insertion order. -/
abbrev Dict (V : Type*) := List (String × V)

namespace Dict
variable {V : Type*}

/-- `d.get(k)`. -/
def get? (d : Dict V) (k : String) : Option V :=
  match d with
  | [] => none
  | (k', v) :: r => if k' = k then some v else get? r k

/-- `d[k] = v`: overwrite in place, append if new. -/
def set (d : Dict V) (k : String) (v : V) : Dict V :=
  match d with
  | [] => [(k, v)]
  | (k', v') :: r => if k' = k then (k, v) :: r else (k', v') :: set r k v

/-- `d.update(e)` and `d | e`: assignments of `e` in order. -/
def update (d e : Dict V) : Dict V := e.foldl (fun acc kv => set acc kv.1 kv.2) d

/-- `k in d`. -/
def has (d : Dict V) (k : String) : Bool := (get? d k).isSome

/-- `if v is not None: d[k] = v`. -/
def setOpt (d : Dict V) (k : String) : Option V → Dict V
  | none => d
  | some v => set d k v

theorem get?_set (d : Dict V) (k k' : String) (v : V) :
    get? (set d k v) k' = if k = k' then some v else get? d k' := by
  induction d with
  | nil => simp [set, get?]
  | cons p r ih =>
    obtain ⟨a, b⟩ := p
    simp only [set]
    split
    · subst_vars; simp [get?]; split <;> simp_all
    · simp only [get?, ih]; split <;> split <;> simp_all

theorem get?_setOpt (d : Dict V) (k k' : String) (v : Option V) :
    get? (setOpt d k v) k' = if k = k' then v.or (get? d k') else get? d k' := by
  cases v <;> simp [setOpt, get?_set]

/-- A Python dict has pairwise distinct keys. -/
def WF (d : Dict V) : Prop := (d.map Prod.fst).Nodup

theorem get?_eq_none_iff (d : Dict V) (k : String) :
    get? d k = none ↔ k ∉ d.map Prod.fst := by
  induction d with
  | nil => simp [get?]
  | cons p r ih =>
    obtain ⟨a, b⟩ := p
    simp only [get?, List.map_cons, List.mem_cons, not_or]
    split
    · subst_vars; simp
    · rw [ih]; constructor
      · intro h; exact ⟨fun e => by simp_all, h⟩
      · exact fun h => h.2

theorem get?_update (d e : Dict V) (he : WF e) (k : String) :
    get? (update d e) k = (get? e k).or (get? d k) := by
  induction e generalizing d with
  | nil => simp [update, get?]
  | cons p r ih =>
    obtain ⟨a, b⟩ := p
    have hw : WF r := (List.nodup_cons.mp he).2
    have ha : a ∉ r.map Prod.fst := (List.nodup_cons.mp he).1
    have : update d ((a, b) :: r) = update (set d a b) r := rfl
    rw [this, ih _ hw, get?_set]
    simp only [get?]
    split
    · subst_vars
      rw [(get?_eq_none_iff r a).2 ha]; simp
    · rfl

end Dict

end SeismoStats
