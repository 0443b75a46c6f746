import Verif.Model.PyPrefs

/-!
# What agents written in Python should see of preferences and requests

Only entries of maps and dicts; none of the functions of the model.
-/

namespace Cyclus.PyPrefs.Spec

open Cyclus.PyPrefs

/-- The map says that the trade of request `r` with bid `b` is worth `x`. -/
def Worth (m : Map) (r b : ℕ) (x : ℚ) : Prop := ∃ bs, (r, bs) ∈ m ∧ (b, x) ∈ bs

/-- Every key occurs once, as in `std::map`. -/
def Proper (m : Map) : Prop :=
  (m.map Prod.fst).Nodup ∧ ∀ e ∈ m, (e.2.map Prod.fst).Nodup

/-- The dict lists the preferences of the map: each trade once, and with the value in the map. -/
def Shows (d : Dict) (m : Map) : Prop :=
  (d.map fun e => (e.1.1.ptr, e.1.2.ptr)).Nodup ∧
  ∀ r b x, Worth m r b x ↔ ∃ e ∈ d, e.1.1.ptr = r ∧ e.1.2.ptr = b ∧ e.2 = x

/-- The keys of a dict. -/
def keys (d : Dict) : List (Wrap × Wrap) := d.map Prod.fst

/-- An agent that leaves the dict it is given as it is and whose updates use its keys; if it is
written in C++, an agent that does not adjust preferences. -/
def Orderly : Agent → Prop
  | .cpp f => ∀ m, f m = m
  | .py f => ∀ d, (keys d).Nodup →
      (f d).1 = d ∧ (keys (f d).2).Nodup ∧ ∀ k ∈ keys (f d).2, k ∈ keys d

/-- The map `m'` is `m` with the updates: updated trades have their new value, others the old
one. -/
def Updated (m : Map) (u : Dict) (m' : Map) : Prop :=
  ∀ r b x, Worth m' r b x ↔
    (∃ e ∈ u, e.1.1.ptr = r ∧ e.1.2.ptr = b ∧ e.2 = x) ∨
    ((∀ e ∈ u, ¬ (e.1.1.ptr = r ∧ e.1.2.ptr = b)) ∧ Worth m r b x)

/-- The agents act in turn on the map: an agent written in C++ on the map itself, an agent written in
Python by its updates, which it chooses for a dict that shows the map as it is at that time. -/
inductive Adjusted : List Agent → Map → Map → Prop where
  | nil (m : Map) : Adjusted [] m m
  | cpp {f : Map → Map} {l : List Agent} {m m' : Map} : Adjusted l (f m) m' →
      Adjusted (.cpp f :: l) m m'
  | py {f : Dict → Dict × Dict} {l : List Agent} {m m₁ m' : Map} {d : Dict} : Shows d m →
      Updated m (f d).2 m₁ → Adjusted l m₁ m' → Adjusted (.py f :: l) m m'

/-- Agents written in C++ may adjust preferences before the first agent written in Python; from
there on all are orderly. -/
inductive Fine : List Agent → Prop where
  | nil : Fine []
  | cpp {f : Map → Map} {l : List Agent} : (∀ m, Proper m → Proper (f m)) → Fine l → Fine (.cpp f :: l)
  | py {f : Dict → Dict × Dict} {l : List Agent} : Orderly (.py f) → (∀ a ∈ l, Orderly a) →
      Fine (.py f :: l)

/-- The dict has the requests of each commodity in the same order. -/
def ShowsRequests (d : ReqDict) (m : Commods) : Prop :=
  d.map (fun e => (e.1, e.2.map Wrap.ptr)) = m

end Cyclus.PyPrefs.Spec
