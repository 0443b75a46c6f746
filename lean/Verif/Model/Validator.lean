import Mathlib.Data.List.Basic
import Mathlib.Data.Int.Notation

/-!
# Model of the validator of inputs and of the parser of XML

Models `RelaxNGValidator` (`/repo/src/relax_ng_validator.cc:22-89`) and `XMLParser` (`/repo/src/xml_parser.cc:22-86`).

Simplifications.
* libxml is arbitrary (`Lib`): which texts are documents and schemas, when a context can be made, what `xmlRelaxNGValidateDoc` returns, and what
  including other files does.  Removing the attributes `xml:base` (lines 79-84) is part of `include`.
* Schemas and contexts for validation are objects with numbers in the order they are made; `freed` lists those that were freed.
  Contexts of the parser of schemas are only counted.
* An `xmlError` that is thrown is left out (libxml is written in C).  Logging is left out.
-/

namespace Cyclus.Validator

/-- Texts. -/
abbrev Txt := List Char

/-- libxml. -/
structure Lib (S D : Type) where
  /-- `xmlRelaxNGParse`. -/
  schema : Txt → Option S
  /-- Whether `xmlRelaxNGNewValidCtxt` gives a context. -/
  context : S → Bool
  /-- `xmlRelaxNGValidateDoc`. -/
  validate : S → D → ℤ
  /-- `parse_memory` of `DomParser`; `none` if it throws. -/
  document : Txt → Option D
  /-- `process_xinclude`; `none` if it throws. -/
  «include» : D → Option D

/-- Outcomes of calls: a value, a `ValidationError`, an exception of libxml++, or the use of a null pointer. -/
inductive Out (A : Type) where
  | ok (a : A)
  | invalid | xmlpp | crash
  deriving DecidableEq

/-- A validator. -/
structure Val (S : Type) where
  /-- `schema_`, with its number. -/
  schema : Option (ℕ × S)
  /-- `valid_context_`, with its number and the schema it was made for. -/
  context : Option (ℕ × S)
  /-- The number of the next object. -/
  next : ℕ
  /-- What was freed. -/
  freed : List ℕ
  /-- How many contexts of parsers were made, and freed. -/
  parsers : ℕ
  parsersFreed : ℕ

/-- The constructor (line 22). -/
def Val.new {S : Type} : Val S := ⟨none, none, 0, [], 0, 0⟩

/-- `release_underlying` (46-56). -/
def release {S : Type} (v : Val S) : Val S :=
  let v := match v.context with
    | some (n, _) => { v with context := none, freed := n :: v.freed }
    | none => v
  match v.schema with
  | some (n, _) => { v with schema := none, freed := n :: v.freed }
  | none => v

/-- `parse_memory` and `parse_context` (30-43). -/
def parse {S D : Type} (L : Lib S D) (v : Val S) (t : Txt) : Val S × Out Unit :=
  let v := release { v with parsers := v.parsers + 1 }
  match L.schema t with
  | none => (v, .invalid)
  | some s => ({ v with schema := some (v.next, s), next := v.next + 1 }, .ok ())

/-- Lines 68-71. -/
def ensure {S D : Type} (L : Lib S D) (v : Val S) (s : S) : Val S :=
  match v.context with
  | some _ => v
  | none => if L.context s then { v with context := some (v.next, s), next := v.next + 1 } else v

/-- `Validate` (59-89); the argument may be null. -/
def validate {S D : Type} (L : Lib S D) (v : Val S) (d : Option D) : Val S × Out Bool :=
  match d with
  | none => (v, .invalid)
  | some d =>
    match v.schema with
    | none => (v, .invalid)
    | some (_, s) =>
      let v := ensure L v s
      match v.context with
      | none => (v, .invalid)
      | some (_, c) => if L.validate c d ≠ 0 then (v, .invalid) else (v, .ok (L.validate c d != 0))

/-- A call. -/
inductive Op (D : Type) where
  | parse (t : Txt)
  | validate (d : Option D)

/-- One call. -/
def Op.run {S D : Type} (L : Lib S D) (v : Val S) : Op D → Val S
  | .parse t => (Validator.parse L v t).1
  | .validate d => (Validator.validate L v d).1

/-- The calls on a new validator. -/
def run {S D : Type} (L : Lib S D) (l : List (Op D)) : Val S := l.foldl (Op.run L) .new

/-- `XMLParser::Init` (`xml_parser.cc:32-47`): the document of the new parser, `none` if there is none. -/
def init {S D : Type} (L : Lib S D) (t : Txt) : Option D × Out Unit :=
  match L.document t with
  | none => (none, .invalid)
  | some d => (some d, .ok ())

/-- `XMLParser::Document` (61-86). -/
def document {S D : Type} (L : Lib S D) (p : Option D) : Option D × Out D :=
  match p with
  | none => (none, .crash)
  | some d =>
    match L.include d with
    | none => (some d, .xmlpp)
    | some e => (some e, .ok e)

/-- `XMLParser::Validate` (54-58): the schema is parsed first. -/
def check {S D : Type} (L : Lib S D) (p : Option D) (schema : Txt) : Option D × Out Unit :=
  match parse L .new schema with
  | (v, .ok ()) =>
    match document L p with
    | (p, .ok d) =>
      match (validate L v (some d)).2 with
      | .ok _ => (p, .ok ())
      | .invalid => (p, .invalid)
      | .xmlpp => (p, .xmlpp)
      | .crash => (p, .crash)
    | (p, .invalid) => (p, .invalid)
    | (p, .xmlpp) => (p, .xmlpp)
    | (p, .crash) => (p, .crash)
  | (_, .invalid) => (p, .invalid)
  | (_, .xmlpp) => (p, .xmlpp)
  | (_, .crash) => (p, .crash)

end Cyclus.Validator
