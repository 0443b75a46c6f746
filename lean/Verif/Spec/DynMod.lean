import Verif.Model.DynMod

/-!
# Specification of making agents from modules (C132)

Which file or Python module a spec stands for, which constructor it names, and which libraries a sequence of operations has to
keep open.
-/

namespace Cyclus.DynMod

open Load (Spec)

variable {κ : Type}

/-- No field of the spec contains a colon. -/
def Plain (p : Spec) : Prop := ':' ∉ p.path ∧ ':' ∉ p.lib ∧ ':' ∉ p.agent

/-- The file name of the library of a spec, below the directories that are searched. -/
def fileOf (w : World κ) (p : Spec) : Txt := w.join p.path ("lib".toList ++ p.lib ++ ".so".toList)

/-- What a spec stands for: its library in the first directory that has it, or else the Python module with the name of the library. -/
inductive Found (w : World κ) (p : Spec) : Txt → Prop
  | file {a b : List Txt} {d : Txt} : w.dirs = a ++ d :: b → (∀ x ∈ a, w.ex (w.join x (fileOf w p)) = false) →
      w.ex (w.join d (fileOf w p)) = true → Found w p (w.join d (fileOf w p))
  | python : (∀ x ∈ w.dirs, w.ex (w.join x (fileOf w p)) = false) → p.lib ≠ [] → w.py p.lib ≠ [] → Found w p (w.py p.lib)

/-- The mark of Python modules. -/
def PyPath (f : Txt) : Prop := ['<', 'p', 'y', '>'] <+: f

/-- The spec stands for library `f`, and `f` can be opened. -/
def Opened (w : World κ) (p : Spec) (f : Txt) : Prop := Found w p f ∧ ¬ PyPath f ∧ w.opens f = true

/-- The function that makes agents of this kind. -/
def entry (w : World κ) (p : Spec) (f : Txt) : Option κ := w.sym f ("Construct".toList ++ p.agent)

/-- The constructor that a spec names. -/
inductive Names (w : World κ) (p : Spec) : κ → Prop
  | lib {f : Txt} {c : κ} : Opened w p f → entry w p f = some c → Names w p c
  | python {f : Txt} {c : κ} : Found w p f → PyPath f → w.cls p.lib p.agent = some c → Names w p c

/-- The spec stands for a Python module that has no such class. -/
def NoClass (w : World κ) (p : Spec) : Prop := ∃ f, Found w p f ∧ PyPath f ∧ w.cls p.lib p.agent = none

/-- There is such a module: a Python module, or a library with the constructor. -/
def There (w : World κ) (p : Spec) : Prop := ∃ f, Found w p f ∧ (PyPath f ∨ w.opens f = true ∧ ∃ c, entry w p f = some c)

/-- Operations. -/
inductive Op where
  | make (p : Spec)
  | exist (p : Spec)
  | close

/-- The state after operations, the last one first, none of which ended the program; no library refused to be closed. -/
inductive Runs (w : World κ) : List Op → St κ → Prop
  | start : Runs w [] (St.init κ)
  | made {ops : List Op} {s s' : St κ} {p : Spec} {a : Agent κ} : Runs w ops s → make w s p = .ok a s' → Runs w (.make p :: ops) s'
  | refused {ops : List Op} {s s' : St κ} {p : Spec} {e : Err} : Runs w ops s → make w s p = .err e s' →
      Runs w (.make p :: ops) s'
  | asked {ops : List Op} {s : St κ} (p : Spec) : Runs w ops s → Runs w (.exist p :: ops) (exist w s p).2
  | closed {ops : List Op} {s s' : St κ} : Runs w ops s → closeAll w s = .ok () s' → Runs w (.close :: ops) s'

/-- The spec of an operation has no colons. -/
def Op.Plain : Op → Prop
  | .make p => DynMod.Plain p
  | .exist p => DynMod.Plain p
  | .close => True

/-- The operation opens `f` and nothing will close it: a question, or an agent that `f` does not have. -/
def Leaks (w : World κ) (f : Txt) : Op → Prop
  | .make p => Opened w p f ∧ entry w p f = none
  | .exist p => Opened w p f
  | .close => False

/-- The operations after the last `close`. -/
def since (ops : List Op) : List Op := ops.takeWhile fun | .close => false | _ => true

open Classical in
/-- The text of the spec, if the operation makes an agent of library `f`. -/
noncomputable def loads (w : World κ) (f : Txt) : Op → Option Txt
  | .make p => if Opened w p f ∧ entry w p f ≠ none then some p.str else none
  | _ => none

open Classical in
/-- How often library `f` has to be open: once for each spec used since the last `close`. -/
noncomputable def held (w : World κ) (f : Txt) (ops : List Op) : ℕ := ((since ops).filterMap (loads w f)).dedup.length

open Classical in
/-- How often library `f` is open and will never be closed. -/
noncomputable def lost (w : World κ) (f : Txt) (ops : List Op) : ℕ := ops.countP fun o => decide (Leaks w f o)

end Cyclus.DynMod
