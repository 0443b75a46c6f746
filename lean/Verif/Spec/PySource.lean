import Verif.Model.PySource

/-!
# What input files in Python mean
-/

namespace Cyclus.PySource

/-- The simulation that a program defines: of the three names the first that is defined; it is called if it can be. -/
def Simulation {V : Type} (P : Py V) (ctx : Txt → Option V) (v : V) : Prop :=
  ∃ u, (ctx "simulation".toList = some u ∨
      (ctx "simulation".toList = none ∧ ctx "SIMULATION".toList = some u) ∨
      (ctx "simulation".toList = none ∧ ctx "SIMULATION".toList = none ∧ ctx "Simulation".toList = some u)) ∧
    ((P.call u = none ∧ v = u) ∨ P.call u = some (.ok v))

/-- Its text in JSON: itself if it is a text, else its bytes, else the mapping. -/
def JsonOf {V : Type} (P : Py V) (v : V) (t : Txt) : Prop :=
  P.str v = some t ∨ (P.str v = none ∧ P.bytes v = some (.ok t)) ∨
    (P.str v = none ∧ P.bytes v = none ∧ P.mapping v = some (.ok t))

/-- An input in Python gives a text in JSON: the program, ended by a line break, is run and defines a simulation with this
text. -/
def Gives {V : Type} (P : Py V) (s t : Txt) : Prop :=
  ∃ src ctx v, (src = s ∨ src = s ++ ['\n']) ∧ src.getLast? = some '\n' ∧ (s.getLast? = some '\n' → src = s) ∧
    P.exec src = .ok ctx ∧ Simulation P ctx v ∧ JsonOf P v t

/-- No character 0. -/
def NoNul (t : Txt) : Prop := Char.ofNat 0 ∉ t

end Cyclus.PySource
