import Verif.Model.VLFiles

/-!
# Vocabulary for the claims about the data sets of variable-length values
-/

namespace Cyclus.VLFiles

variable {T N D : Type} [DecidableEq T] [DecidableEq N]

mutual
/-- A value, its parts, their parts, and so on. -/
def Val.subs : Val N D → List (Val N D)
  | .node n d kids => .node n d kids :: subsKids kids

/-- The same for several values. -/
def subsKids : List (Val N D) → List (Val N D)
  | [] => []
  | v :: vs => v.subs ++ subsKids vs
end

/-- The parts of a value that are stored by digest. -/
def Val.kids : Val N D → List (Val N D)
  | .node _ _ kids => kids

/-- The parts that are stored in place. -/
def Val.data : Val N D → D
  | .node _ d _ => d

/-- The cell in the data set of the C++ type `n` at an index, if it was written. -/
def File.cell (f : File N D) (n : N) (k : Digest) : Option (Cell N D) := (f.cells n).bind fun cs => cs k

/-- The file holds a value: the value, its parts, and so on, are each in the data set of their C++ type, at
their digest. -/
def Holds (H : Val N D → Digest) (f : File N D) (v : Val N D) : Prop :=
  ∀ x ∈ v.subs, f.cell x.type (H x) = some ⟨x.data, x.kids.map fun y => (y.type, H y)⟩

/-- Among the values `U`, with all their parts, no two of the same C++ type have the same digest. -/
def Apart (H : Val N D → Digest) (U : Val N D → Prop) : Prop :=
  (∀ x, U x → ∀ y ∈ x.kids, U y) ∧ ∀ x y, U x → U y → x.type = y.type → H x = H y → x = y

/-- The states reached from a new file, and the values written so far: tables are created, values of `U` are
written without an exception, values are read (with or without one), and the file is opened again. -/
inductive Reach (ty : Types T N D) (H : Val N D → Digest) (U : Val N D → Prop) :
    List (T × Val N D) → Back T N D → Prop
  | new : Reach ty H U [] (.open ty .new)
  | create {w s} (ts : List T) : Reach ty H U w s → Reach ty H U w (s.create ts)
  | reopen {w s} : Reach ty H U w s → Reach ty H U w (.open ty s.file)
  | write {w s s' k} (t : T) (v : Val N D) : Reach ty H U w s → U v → ty.fam t = v.type →
      write ty H t v s = (s', .ok k) → Reach ty H U ((t, v) :: w) s'
  | read {w s s' r} (f : ℕ) (t : T) (k : Digest) : Reach ty H U w s →
      read ty f t k s = some (s', r) → Reach ty H U w s'

/-- The types `ts` suffice for the value `v` in a column of the type `t`. -/
def Covers (ty : Types T N D) (ts : List T) (t : T) (v : Val N D) : Prop :=
  ty.fam t = v.type ∧ t ∈ ts ∧ ∀ x ∈ subsKids v.kids, ty.full x.type ∈ ts

/-- Writing several values one after the other. -/
def writeAll (ty : Types T N D) (H : Val N D → Digest) :
    List (T × Val N D) → Back T N D → Outcome (Back T N D) (List Digest)
  | [], s => (s, .ok [])
  | (t, v) :: ws, s =>
    match write ty H t v s with
    | (s, .error e) => (s, .error e)
    | (s, .ok k) =>
      match writeAll ty H ws s with
      | (s, .error e) => (s, .error e)
      | (s, .ok ks) => (s, .ok (k :: ks))

end Cyclus.VLFiles
