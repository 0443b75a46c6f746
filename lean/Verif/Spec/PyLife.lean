import Verif.Model.PyLife

/-!
# Specification of the lifetime of agents in Python (C133)
-/

namespace Cyclus.PyLife

/-- What happens to agents of a simulation: they are made and cloned by C++, initialised, given to Python code, which may keep them as long as it
likes, called, and deleted.  (The user does not call classes, the cache is not cleared, and deleted agents are not used.) -/
def Managed : Op → Prop
  | .user _ => False
  | .clear => False
  | .use _ => False
  | _ => True

instance : DecidablePred Managed := fun o => by cases o <;> unfold Managed <;> infer_instance

/-- Object `o` lives and is that of agent `c`. -/
def Lives (s : St) (o c : ℕ) : Prop := ∃ b, s.objs o = some b ∧ b.cpp = c

end Cyclus.PyLife
