import Verif.Model.Loader

/-!
# Model of the tables in which agents keep their state

Models `DbInit` (`/repo/src/db_init.cc:8-21`), the injectors with which state is read (`/repo/src/query_backend.h:522-582`) as they are used by
`SimInit` (`/repo/src/sim_init.cc:124-150,361-373,420-427`), `XMLFileLoader` (`/repo/src/xml_file_loader.cc:391-407`) and `MockSim`
(`/repo/src/mock_sim.cc:18-33`).

Simplifications.
* The database is the list of rows that were recorded, each with its table, the two columns that `DbInit` adds, and the rest as a payload.  Rows
  are returned in the order they were recorded.  Only one simulation is in the database.
* Queries are exact (C30): the rows of the table that satisfy all conditions.
-/

namespace Cyclus.StateTables

open Cyclus.Load

/-- Texts. -/
abbrev Txt := List Char

/-- A row of a table. -/
structure Row (A : Type) where
  table : Txt
  agentId : ℤ
  simTime : ℤ
  payload : A
  deriving DecidableEq

/-- An agent, as far as it matters here. -/
structure Agent where
  id : ℤ
  spec : Spec

/-- The prefix of the tables (`db_init.cc:13-16`). -/
def statePrefix (full : Bool) (s : Spec) : Txt :=
  if full then "AgentState".toList ++ s.sanitize else "AgentState".toList

/-- `NewDatum` (`db_init.cc:12-21`) at a time, and the recording of the rest. -/
def newDatum {A : Type} (full : Bool) (m : Agent) (time : ℤ) (title : Txt) (a : A) : Row A :=
  ⟨statePrefix full m.spec ++ title, m.id, time, a⟩

/-- The row of an inventory (`sim_init.cc:138-143`). -/
def inventory {A : Type} (m : Agent) (time : ℤ) (a : A) : Row A := ⟨"AgentStateInventories".toList, m.id, time, a⟩

/-- What is recorded: by `DbInit` with a title, or an inventory. -/
inductive Write (A : Type) where
  | state (full : Bool) (m : Agent) (time : ℤ) (title : Txt) (a : A)
  | inv (m : Agent) (time : ℤ) (a : A)

/-- Its row. -/
def Write.row {A : Type} : Write A → Row A
  | .state full m time title a => newDatum full m time title a
  | .inv m time a => inventory m time a

/-- The database after some writes. -/
def db {A : Type} (l : List (Write A)) : List (Row A) := l.map Write.row

/-- A query through the two injectors (`query_backend.h:528-538,565-567`): the time is a condition for agents (`sim_init.cc:422`), but not for
prototypes (364-366). -/
def query {A : Type} (rows : List (Row A)) (pre : Txt) (id : ℤ) (time : Option ℤ) (title : Txt) : List A :=
  (rows.filter fun r => decide (r.table = pre ++ title) && decide (r.agentId = id) &&
    (match time with
      | none => true
      | some t => decide (r.simTime = t))).map Row.payload

/-- What the archetype (`full`), or the class `Agent`, reads. -/
def read {A : Type} (rows : List (Row A)) (full : Bool) (m : Agent) (time : Option ℤ) (title : Txt) : List A :=
  query rows (statePrefix full m.spec) m.id time title

/-- What is read back as inventories (`sim_init.cc:465-475`). -/
def readInv {A : Type} (rows : List (Row A)) (m : Agent) (time : ℤ) : List A :=
  query rows "AgentState".toList m.id (some time) "Inventories".toList

end Cyclus.StateTables
