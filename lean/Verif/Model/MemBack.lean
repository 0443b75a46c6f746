import Verif.Model.Cycpp
import Verif.Model.Basic
import Mathlib.Data.List.Dedup

/-!
Model of the Python in-memory backend, `/repo/cyclus/memback.pyx`.

* Titles of tables are natural numbers, names of fields are strings (lists of characters).
* Values are elements of any type `V` with any comparison `cmp`, which may raise.
* A pandas data frame is a list of columns and a list of rows; a row gives a value to every
  name, NaN to those it has no value for.
-/

namespace Cyclus.MemBack

open Cyclus.Cycpp (Str)

/-! ## Conditions -/

/-- The comparison nodes of `_cmpnodes` (`memback.pyx:310`). -/
inductive Op where
  | eq | ne | lt | le | gt | ge
  deriving DecidableEq

/-- Looking up `_cmpnodes`. -/
def Op.parse (s : Str) : Option Op :=
  if s = "==".toList then some .eq
  else if s = "!=".toList then some .ne
  else if s = "<".toList then some .lt
  else if s = "<=".toList then some .le
  else if s = ">".toList then some .gt
  else if s = ">=".toList then some .ge
  else none

/-- A condition `(field, op, val)`. -/
structure Cond (V : Type) where
  field : Str
  op : Str
  val : V

/-- A data frame. -/
structure Frame (V : Type) where
  cols : List Str
  rows : List (Str → V)

/-- What Python needs to know about values and names: the comparison (`none`: TypeError), the
value `None`, NaN, and the names `ast` refuses (`None`, `True`, `False`). -/
structure Env (V : Type) where
  cmp : Op → V → V → Option Bool
  pyNone : V
  nan : V
  reserved : Str → Bool

/-- The name `'val' + str(i)` (`memback.pyx:267`). -/
def valName (i : ℕ) : Str := "val".toList ++ Nat.toDigits 10 i

def builtins : Str := "__builtins__".toList

/-- An object in the evaluation context: a column of the frame or a value. -/
inductive Obj (V : Type) where
  | col (f : Str)
  | val (v : V)

abbrev NameCtx (V : Type) := Str → Option (Obj V)

def NameCtx.set {V : Type} (c : NameCtx V) (k : Str) (o : Obj V) : NameCtx V :=
  fun x => if x = k then some o else c x

/-- The compiled expression: `field0 op0 val0 & field1 op1 val1 & ...`
(`memback.pyx:281-308`). -/
abbrev Code := List (Str × Op)

/-- `_query_code_cache` and `_query_code_lru` (`memback.pyx:128-129`). -/
structure Codes where
  cache : List (Str × Code) := []
  lru : List Str := []

variable {V : Type}

/-- The loop of `_apply_conds` that fills `ctx` (`memback.pyx:263-267`); a field that is no
column of the frame is a KeyError. -/
def buildCtx (df : Frame V) : ℕ → List (Cond V) → NameCtx V → Except Err (NameCtx V)
  | _, [], ctx => .ok ctx
  | i, c :: cs, ctx =>
    match ctx c.field with
    | some _ => buildCtx df (i + 1) cs (ctx.set (valName i) (.val c.val))
    | none =>
      if c.field ∈ df.cols then
        buildCtx df (i + 1) cs ((ctx.set c.field (.col c.field)).set (valName i) (.val c.val))
      else .error .key

/-- `key` (`memback.pyx:261-264`). -/
def keyOf (conds : List (Cond V)) : Str := conds.flatMap fun c => c.field ++ c.op

/-- The loop of `_parse_conds` with `_parse_cond` (`memback.pyx:287-308`). -/
def parseConds (env : Env V) : List (Cond V) → Except Err Code
  | [] => .ok []
  | c :: cs =>
    match Op.parse c.op with
    | none => .error .key
    | some o =>
      if env.reserved c.field then .error .value
      else match parseConds env cs with
        | .error e => .error e
        | .ok code => .ok ((c.field, o) :: code)

/-- `_compile_conds` (`memback.pyx:281-285`).  Without conditions `_parse_conds` returns a
variable that was never set, an UnboundLocalError. -/
def compile (env : Env V) (conds : List (Cond V)) : Except Err Code :=
  if conds.isEmpty then .error .generic else parseConds env conds

/-- The value of a name in a row. -/
def valueIn (row : Str → V) : Obj V → V
  | .col f => row f
  | .val v => v

def isCol : Obj V → Bool
  | .col _ => true
  | .val _ => false

/-- The names and objects of the compiled expression; a name that is not in the context is
a NameError. -/
def operands (ctx : NameCtx V) : ℕ → Code → Option (List (Obj V × Op × Obj V))
  | _, [] => some []
  | i, (f, o) :: code =>
    match ctx f, ctx (valName i), operands ctx (i + 1) code with
    | some l, some r, some rest => some ((l, o, r) :: rest)
    | _, _, _ => none

/-- The mask in one row: the comparisons joined by `&`, all of which are evaluated. -/
def maskIn (env : Env V) (row : Str → V) : List (Obj V × Op × Obj V) → Option Bool
  | [] => some true
  | (l, o, r) :: rest =>
    match env.cmp o (valueIn row l) (valueIn row r), maskIn env row rest with
    | some a, some b => some (a && b)
    | _, _ => none

/-- The rows kept by a mask. -/
def selectRows (env : Env V) (es : List (Obj V × Op × Obj V)) :
    List (Str → V) → Option (List (Str → V))
  | [] => some []
  | r :: rs =>
    match maskIn env r es, selectRows env es rs with
    | some b, some out => some (if b then r :: out else out)
    | _, _ => none

/-- `eval(code, ctx, ctx)` and `df[mask]` (`memback.pyx:277-279`).  If no column takes part,
the mask is one truth value, which is no column of the frame: KeyError. -/
def evalCode (env : Env V) (df : Frame V) (ctx : NameCtx V) (code : Code) :
    Except Err (Frame V) :=
  match operands ctx 0 code with
  | none => .error .generic
  | some es =>
    if es.any (fun e => isCol e.1 || isCol e.2.2) then
      match selectRows env es df.rows with
      | none => .error .cast
      | some rows => .ok ⟨df.cols, rows⟩
    else .error .key

/-- Entering code under a key that is not in the cache (`memback.pyx:272-276`). -/
def Codes.add (cc : Codes) (key : Str) (code : Code) : Codes :=
  let cache := cc.cache ++ [(key, code)]
  if cc.lru.length = 256 then
    match cc.lru with
    | [] => ⟨cache, [key]⟩
    | k :: ks => ⟨cache.filter (fun p => p.1 ≠ k), ks ++ [key]⟩
  else ⟨cache, cc.lru ++ [key]⟩

def Codes.find (cc : Codes) (key : Str) : Option Code :=
  (cc.cache.find? fun p => p.1 = key).map Prod.snd

/-- `_apply_conds` (`memback.pyx:259-279`). -/
def applyConds (env : Env V) (cc : Codes) (df : Frame V) (conds : List (Cond V)) :
    Codes × Except Err (Frame V) :=
  match buildCtx df 0 conds (fun x => if x = builtins then some (.val env.pyNone) else none) with
  | .error e => (cc, .error e)
  | .ok ctx =>
    let key := keyOf conds
    match cc.find key with
    | some code => (cc, evalCode env df ctx code)
    | none =>
      match compile env conds with
      | .error e => (cc, .error e)
      | .ok code => (cc.add key code, evalCode env df ctx code)

/-! ## Notify, registry and query -/

/-- A datum: its title and its fields with values (`src/datum.cc:22-31`). -/
structure Datum (V : Type) where
  title : ℕ
  vals : List (Str × V)

def Datum.fields (d : Datum V) : List Str := d.vals.map Prod.fst

/-- A value that may be missing. -/
def lookupD (nan : V) (l : List (Str × V)) (f : Str) : V :=
  match l.find? fun p => p.1 = f with
  | some p => p.2
  | none => nan

/-- `pd.DataFrame(res, columns=fields[:])` for a group of data (`memback.pyx:82-97`): the
values of each datum under the fields of the first.  It raises (`none`) if their numbers
differ.  The fields of a datum are taken to be distinct. -/
def frameOf (env : Env V) : List (Datum V) → Option (Frame V)
  | [] => none
  | d0 :: ds =>
    let fields := d0.fields
    if (d0 :: ds).all (fun d => d.vals.length = fields.length) then
      some ⟨fields, (d0 :: ds).map fun d => lookupD env.nan (fields.zip (d.vals.map Prod.snd))⟩
    else none

/-- `pd.concat([a, b], ignore_index=True)` (`memback.pyx:99-103`). -/
def Frame.concat (a b : Frame V) : Frame V :=
  ⟨a.cols ++ b.cols.filter (fun f => f ∉ a.cols), a.rows ++ b.rows⟩

/-- Extending the cached frame (`memback.pyx:98-104`). -/
def extend : Option (Frame V) → Frame V → Frame V
  | some old, results => old.concat results
  | none, results => results

/-- `groups[name].push_back(d)` of a `std::map` (`memback.pyx:66-79`). -/
def pushGroup (d : Datum V) : List (ℕ × List (Datum V)) → List (ℕ × List (Datum V))
  | [] => [(d.title, [d])]
  | g :: gs =>
    if d.title < g.1 then (d.title, [d]) :: g :: gs
    else if d.title = g.1 then (g.1, g.2 ++ [d]) :: gs
    else g :: pushGroup d gs

structure St (V : Type) where
  storeAll : Bool
  registry : List ℕ
  cache : ℕ → Option (Frame V)
  codes : Codes := {}

/-- The loop of `Notify` over the groups (`memback.pyx:81-104`).  An exception leaves the
function, which cannot raise, so it is ignored and the other groups are lost. -/
def storeGroups (env : Env V) :
    List (ℕ × List (Datum V)) → (ℕ → Option (Frame V)) → (ℕ → Option (Frame V))
  | [], cache => cache
  | g :: gs, cache =>
    match frameOf env g.2 with
    | none => cache
    | some results =>
      storeGroups env gs fun t => if t = g.1 then some (extend (cache g.1) results) else cache t

/-- `CyclusMemBack::Notify` (`memback.pyx:49-104`). -/
def notify (env : Env V) (s : St V) (data : List (Datum V)) : St V :=
  if s.storeAll = false ∧ s.registry = [] then s
  else if data = [] then s
  else
    let data := if s.storeAll then data else data.filter fun d => d.title ∈ s.registry
    { s with cache := storeGroups env (data.foldl (fun gs d => pushGroup d gs) []) s.cache }

/-- What `registry` is set to: `True`, `False` or `None`, or a set. -/
inductive RegVal where
  | all
  | off
  | only (l : List ℕ)

/-- The setter of `registry` (`memback.pyx:231-254`).  `_registry` is a copy of the C++
registry, made when it is asked for. -/
def setRegistry (s : St V) : RegVal → St V
  | .all => { s with registry := [], storeAll := true }
  | .off => { s with registry := [], storeAll := false, cache := fun _ => none }
  | .only val =>
    { s with registry := val, storeAll := false,
             cache := fun t => if t ∈ s.registry ∧ t ∉ val then none else s.cache t }

/-- `__cinit__` (`memback.pyx:122-129`). -/
def create (r : RegVal) : St V :=
  setRegistry { storeAll := true, registry := [], cache := fun _ => none } r

/-- A fallback backend: `query(table, conds)`; `none` is a RuntimeError. -/
abbrev Fallback (V : Type) := ℕ → Option (List (Cond V)) → Option (Frame V)

/-- `query` (`memback.pyx:143-181`); a result of `none` is Python's `None`. -/
def query (env : Env V) (fb : Option (Fallback V)) (s : St V) (t : ℕ)
    (conds : Option (List (Cond V))) : St V × Except Err (Option (Frame V)) :=
  match s.cache t with
  | some df =>
    match conds with
    | none => (s, .ok (some df))
    | some cs =>
      let r := applyConds env s.codes df cs
      ({ s with codes := r.1 }, r.2.map some)
  | none =>
    match fb with
    | none => (s, .ok none)
    | some fb =>
      if s.storeAll || t ∈ s.registry then
        match fb t none with
        | none => (s, .ok none)
        | some df =>
          let s := { s with cache := fun x => if x = t then some df else s.cache x }
          match conds with
          | none => (s, .ok (some df))
          | some cs =>
            let r := applyConds env s.codes df cs
            ({ s with codes := r.1 }, r.2.map some)
      else (s, .ok (fb t conds))

/-! ## Requests of the server -/

/-- The memory backend and the registry messages sent so far. -/
structure Serving (V : Type) where
  back : St V
  sent : List (List ℕ) := []

/-- `send_registry` (`cyclus/actions.py:93-97`): the sorted names. -/
def sendRegistry (x : Serving V) : Serving V :=
  { x with sent := x.sent ++ [x.back.registry.dedup.mergeSort (fun a b => decide (a ≤ b))] }

/-- `send_registry_action` (`actions.py:100-102`). -/
def registryRequest (x : Serving V) : Serving V × Except Err Unit := (sendRegistry x, .ok ())

/-- `register_tables` (`actions.py:105-114`).  It calls `send_registry()` without its argument,
a TypeError. -/
def registerTables (x : Serving V) (tables : List ℕ) : Serving V × Except Err Unit :=
  let reg := x.back.registry ++ tables.filter fun t => t ∉ x.back.registry
  ({ x with back := setRegistry x.back (.only reg) }, .error .cast)

/-- `deregister_tables` (`actions.py:117-126`), with the same call. -/
def deregisterTables (x : Serving V) (tables : List ℕ) : Serving V × Except Err Unit :=
  let reg := x.back.registry.filter fun t => t ∉ tables
  ({ x with back := setRegistry x.back (.only reg) }, .error .cast)

end Cyclus.MemBack
