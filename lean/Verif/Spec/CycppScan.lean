import Verif.Model.CycppScan

/-!
# The contents of a C++ file as a tree, for the second pass of the preprocessor

Namespaces, classes and other blocks contain items.  `flat` writes a tree as the statements that the
preprocessor sees.  `events` goes through the tree with the scope, the namespaces used and the aliases that C++
has at each place, and lists the heads of classes and the state variables.
-/

namespace Cyclus.CycppScan

/-- An item of a file. -/
inductive Item (α : Type) where
  /-- `namespace name { body }` -/
  | ns (name : Str) (body : List (Item α))
  /-- `class name : bases { body }` -/
  | cls (name : Str) (bases : List Str) (body : List (Item α))
  /-- `class name;` -/
  | fwd (name : Str)
  /-- another block, as of a function -/
  | block (body : List (Item α))
  | usingNs (name : Str)
  | nsAlias (al name : Str)
  | typedef (typ : Str) (names : List Str)
  | usingName (name : Str)
  /-- a pragma and the declaration of the variable -/
  | var (a : Pragma α) (vtype vname : Str)
  /-- a declaration without a pragma -/
  | plain (vtype vname : Str)
  | other

mutual

/-- The statements of an item. -/
def flatItem {α : Type} : Item α → List (Stmt α × Sep)
  | .ns n b => (.ns (some n), .opened) :: (flat b ++ [(.other, .closed)])
  | .cls n bs b => (.cls n bs, .opened) :: (flat b ++ [(.other, .closed)])
  | .fwd n => [(.cls n [], .other)]
  | .block b => (.other, .opened) :: (flat b ++ [(.other, .closed)])
  | .usingNs n => [(.usingNs n, .other)]
  | .nsAlias a n => [(.nsAlias a n, .other)]
  | .typedef t ns => [(.typedef t ns, .other)]
  | .usingName n => [(.usingName n, .other)]
  | .var a t x => [(.var a, .other), (.decl t x, .other)]
  | .plain t x => [(.decl t x, .other)]
  | .other => [(.other, .other)]

/-- The statements of items. -/
def flat {α : Type} : List (Item α) → List (Stmt α × Sep)
  | [] => []
  | i :: is => flatItem i ++ flat is

end

/-- What is in force at a place: the number of blocks around it, the namespaces and classes around it,
outermost first, the namespaces used and the aliases with the numbers of blocks around them. -/
structure Env where
  level : ℕ
  nss : List Str
  classes : List Str
  usings : List (ℤ × Str)
  aliases : List (ℤ × Str × Str)

/-- At the beginning of a file. -/
def Env.top : Env := ⟨0, [], [], [], []⟩

/-- The names of the namespaces and classes around. -/
def Env.scope (e : Env) : List Str := e.nss ++ e.classes

/-- The name of the class around. -/
def Env.name (e : Env) : Str := join e.scope

def Env.inNs (e : Env) (n : Str) : Env := { e with nss := e.nss ++ [n] }
def Env.inClass (e : Env) (n : Str) : Env := { e with classes := e.classes ++ [n] }
def Env.deeper (e : Env) : Env := { e with level := e.level + 1 }
def Env.use (e : Env) (n : Str) : Env := { e with usings := insertNew ((e.level : ℤ), n) e.usings }
def Env.call (e : Env) (n a : Str) : Env := { e with aliases := insertNew ((e.level : ℤ), n, a) e.aliases }

/-- After an item. -/
def afterItem {α : Type} (e : Env) : Item α → Env
  | .usingNs n => e.use n
  | .nsAlias a n => e.call n a
  | .typedef t ns => ns.foldl (fun e a => e.call t a) e
  | .usingName n =>
    match lastPart n with
    | some a => e.call n a
    | none => e
  | _ => e

/-- After items. -/
def after {α : Type} (e : Env) : List (Item α) → Env
  | [] => e
  | i :: is => after (afterItem e i) is

/-- The head of a class or a state variable, where it is. -/
inductive Event (α : Type) where
  | cls (e : Env) (bases : List Str)
  | var (e : Env) (a : Pragma α) (vtype vname : Str)

mutual

/-- The events of an item. -/
def eventsItem {α : Type} (e : Env) : Item α → List (Event α)
  | .ns n b => events (e.inNs n).deeper b
  | .cls n bs b => .cls (e.inClass n) bs :: events (e.inClass n).deeper b
  | .fwd n => [.cls (e.inClass n) []]
  | .block b => events e.deeper b
  | .var a t x => [.var e a t x]
  | _ => []

/-- The events of items, in their order. -/
def events {α : Type} (e : Env) : List (Item α) → List (Event α)
  | [] => []
  | i :: is => eventsItem e i ++ events (afterItem e i) is

end

/-- The tables that the second pass makes. -/
structure Store (τ α : Type) where
  supers : List (Str × List Str)
  context : List (Str × Class τ α)

variable {τ α : Type}

/-- What an event does to the tables. -/
def Event.apply (canon : List (ℤ × Str) → List (ℤ × Str × Str) → Str → Except Err τ) (fuel : ℕ)
    (t : Store τ α) : Event α → Except Err (Store τ α)
  | .cls e bs =>
    let old := (t.supers.lookup e.name).getD []
    let table := put e.name old t.supers
    match addSupers (canonizeClass (knows table) e.scope (e.usings.map (·.2)) (e.aliases.map (·.2)) fuel true)
        old bs with
    | .error x => .error x
    | .ok sc => .ok { t with supers := put e.name sc table }
  | .var e a ty x =>
    if e.classes.isEmpty then .error .key
    else
      match ensure fuel e.name t.supers t.context with
      | .error x => .error x
      | .ok c =>
        match canon e.usings e.aliases ty with
        | .error x => .error x
        | .ok ty => .ok { t with context := put e.name { c with vars := addVar x ty a c.vars } t.context }

/-- What events do, one after the other. -/
def applyAll (canon : List (ℤ × Str) → List (ℤ × Str × Str) → Str → Except Err τ) (fuel : ℕ) :
    List (Event α) → Store τ α → Except Err (Store τ α)
  | [], t => .ok t
  | v :: vs, t =>
    match v.apply canon fuel t with
    | .error x => .error x
    | .ok t' => applyAll canon fuel vs t'

/-! ## Results -/

/-- The classes that the items define or declare, with the names of the scopes around them. -/
def declared : List (Event α) → List Str
  | [] => []
  | .cls e _ :: vs => e.name :: declared vs
  | .var .. :: vs => declared vs

/-- The state variables of a class, in the order of their declarations: where they are, the pragma, the text
of the type and the name. -/
def varsOf (cn : Str) : List (Event α) → List (Env × Pragma α × Str × Str)
  | [] => []
  | .cls .. :: vs => varsOf cn vs
  | .var e a t x :: vs => if e.name = cn then (e, a, t, x) :: varsOf cn vs else varsOf cn vs

/-- The state variables in a table of entries. -/
def stateVars (l : List (Str × Entry τ α)) : List (Str × τ × Pragma α) :=
  l.filterMap fun p =>
    match p.2 with
    | .var ty _ a => some (p.1, ty, a)
    | .pointer _ => none

/-- The numbers of the state variables in a table of entries. -/
def indices (l : List (Str × Entry τ α)) : List ℕ :=
  l.filterMap fun p =>
    match p.2 with
    | .var _ i _ => some i
    | .pointer _ => none

/-- The entries of a class. -/
def entriesOf (cn : Str) (context : List (Str × Class τ α)) : List (Str × Entry τ α) :=
  match context.lookup cn with
  | some c => c.vars
  | none => []

/-- Names occur once, and no alias is the name of a variable. -/
def Clean (ds : List (Env × Pragma α × Str × Str)) : Prop :=
  (ds.map (·.2.2.2)).Nodup ∧ ∀ d ∈ ds, ∀ l, d.2.1.label = some l → l ∉ ds.map (·.2.2.2)

/-- The class has the parent in the table. -/
def Parent (supers : List (Str × List Str)) (c p : Str) : Prop := ∃ ps, supers.lookup c = some ps ∧ p ∈ ps

/-- The class that a name means in a scope: the one in the innermost scope that has it; outside of all scopes it
is the name itself. -/
def Means (known : Str → Bool) (scope : List Str) (c r : Str) : Prop :=
  (∃ n, 0 < n ∧ n ≤ scope.length ∧ r = within (join (scope.take n)) c ∧ known r = true ∧
    ∀ m, n < m → m ≤ scope.length → known (within (join (scope.take m)) c) = false) ∨
  (r = c ∧ known c = true ∧ ∀ m, 0 < m → m ≤ scope.length → known (within (join (scope.take m)) c) = false)

/-- The name has no colon at its ends. -/
def Bare (c : Str) : Prop := c ≠ [] ∧ c.head? ≠ some ':' ∧ c.getLast? ≠ some ':'

end Cyclus.CycppScan
