/-
Model of seismostats/utils/_config.py.
-/
import Verif.Model.Base

namespace SeismoStats.Config
open SeismoStats

/-- Values an option may be set to (any Python object; only equality matters). -/
abbrev Options (V : Type*) := Dict V

/-- utils/_config.py:5: the initial options; `tt` stands for Python's `True`. -/
def initial {V : Type*} (tt : V) : Options V := [("warnings", tt)]

/-- utils/_config.py:33-37 `set_option`. -/
def setOption {V : Type*} (o : Options V) (key : String) (v : V) : Options V × Py Unit :=
  if o.has key then (o.set key v, .ok ()) else (o, .error .keyError)

/-- utils/_config.py:61 `get_option`. -/
def getOption {V : Type*} (o : Options V) (key : String) : Py V :=
  match o.get? key with
  | some v => .ok v
  | none => .error .keyError

end SeismoStats.Config
