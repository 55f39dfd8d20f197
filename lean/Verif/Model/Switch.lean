import Verif.Model.Planes

/-!
# Switching the declaration planes of dlshogi on and off (cshogi/dlshogi/__init__.py, _cshogi.pyx, src/cshogi.h)

What the modules keep: the flag of the C++ code and a number in each of two Python modules. A name imported by a program is a number of its own.
-/

namespace Verif.Switch
open Position

/-- `use_nyugyoku_features` (src/cshogi.h:49), `_cshogi._dlshogi_FEATURES2_NUM` (_cshogi.pyx:1405), `dlshogi.FEATURES2_NUM` (dlshogi/__init__.py:2), and the numbers
that programs got by `from cshogi.dlshogi import FEATURES2_NUM`, the latest first. -/
structure Modules where
  flag : Bool
  inner : Nat
  outer : Nat
  names : List Nat

/-- What a program does. -/
inductive Call where
  /-- `cshogi.dlshogi.use_nyugyoku_features(use)` -/
  | use (b : Bool)
  /-- `from cshogi.dlshogi import FEATURES2_NUM` -/
  | importName
  /-- `cshogi._cshogi._dlshogi_use_nyugyoku_features(use)` -/
  | useInner (b : Bool)

/-- Loading the modules (src/cshogi.h:49, _cshogi.pyx:1404-1405, dlshogi/__init__.py:1-2). -/
def load : Modules := ⟨false, features2Num false, features2Num false, []⟩

/-- `_dlshogi_use_nyugyoku_features` (_cshogi.pyx:1418-1425, src/cshogi.h:50-52). -/
def useInner (m : Modules) (b : Bool) : Modules :=
  let m := { m with flag := b }
  { m with inner := features2Num m.flag }

/-- `use_nyugyoku_features` (dlshogi/__init__.py:19-27). -/
def use (m : Modules) (b : Bool) : Modules :=
  let m := useInner m b
  { m with outer := m.inner }

/-- One step of a program. -/
def call (m : Modules) : Call → Modules
  | .use b => use m b
  | .importName => { m with names := m.outer :: m.names }
  | .useInner b => useInner m b

/-- A program from the start. -/
def run (cs : List Call) : Modules := cs.foldl call load

/-- `make_input_features` (dlshogi/__init__.py:9-16, _cshogi.pyx:951-952): both arrays afterwards. -/
def makeInputFeatures (m : Modules) (p : Position) (a1 a2 : Floats) : Floats × Floats := dlshogiFeatures m.flag p a1 a2

end Verif.Switch
