import Verif.Model.PyMain

/-!
# What running a simulation from Python should do

A run is a list of steps, which are tried in order until one fails.  Which steps there are follows from the arguments: of
options given several times the last one counts.
-/

namespace Cyclus.PyMain

/-- A step with its outcome. -/
abbrev Step := Ev × Except Err Unit

/-- Trying steps until one fails. -/
def perform : List Step → List Ev × Except Err Unit
  | [] => ([], .ok ())
  | (e, .error x) :: _ => ([e], .error x)
  | (e, .ok _) :: r => (e :: (perform r).1, (perform r).2)

/-- A step that always succeeds, one that raises, and one with a result that is not looked at here. -/
def done (e : Ev) : Step := (e, .ok ())
def fails (e : Err) : Step := (.raised e, .error e)
def forget {α : Type} (r : Except Err α) : Except Err Unit :=
  match r with
  | .ok _ => .ok ()
  | .error e => .error e

/-- The extension of a path: what begins with the last dot of its last component, if something else than dots precedes it
there. -/
def IsExt (p e : Txt) : Prop :=
  ∃ d b x : Txt, p = d ++ b ++ e ∧ e = '.' :: x ∧ '.' ∉ x ∧ '/' ∉ x ∧ '/' ∉ b ∧ (d = [] ∨ d.getLast? = some '/') ∧
    ∃ c ∈ b, c ≠ '.'

open Classical in
/-- The kind of the output file by its extension. -/
noncomputable def kindOf (p : Txt) : Option Kind :=
  if IsExt p ".h5".toList then some .hdf5 else if IsExt p ".sqlite".toList then some .sqlite else none

/-- The schema for an input. -/
def schemaOf (w : World) (flat : Bool) (given : Option Txt) : Txt :=
  match flat with
  | true => w.std true
  | false => given.getD (w.std false)

/-- The steps that load a simulation. -/
noncomputable def loadSteps (w : World) (input : Option Txt) (format output : Txt) (memory : Kind → List Mem) (schema : Option Txt)
    (flat print : Bool) : List Step :=
  match kindOf output with
  | none => [fails .runtime]
  | some k =>
    (.opened k output, w.opens k output) :: done .file :: ((memory k).map fun m => done (.memory m)) ++
      match input with
      | none => [fails .runtime]
      | some f => (.read f format, forget (w.parse f format)) ::
        match w.parse f format with
        | .error _ => []
        | .ok t =>
          let fl := flat || t == "flat".toList
          [(.load fl (schemaOf w fl schema) f format print, w.load fl (schemaOf w fl schema) f format print),
            (.init, w.init)]

/-- The last of some values in a list of arguments. -/
def lastOf {α : Type} (f : Item → Option α) (items : List Item) : Option α := (items.filterMap f).getLast?

/-- The values of options. -/
def outputOf : Item → Option Txt
  | .output s => some s
  | _ => none
def formatsOf : Item → Option Txt
  | .format s => some s
  | _ => none
def pathOf : Item → Option Txt
  | .schemaPath s => some s
  | _ => none
def nameOf : Item → Option Txt
  | .pos s => some s
  | .inputFile s => some s
  | _ => none
def posOf : Item → Option Txt
  | .pos s => some s
  | _ => none

/-- The options that print or set something when they are met, and what they do then; `prev` are the arguments before. -/
def shown (w : World) (prev : List Item) : Item → List Step
  | .schema =>
    let p := schemaOf w (prev.contains .flat) (lastOf pathOf prev)
    match w.text p with
    | .error e => [(.file_read p, .error e)]
    | .ok t => [done (.file_read p), done (.say t)]
  | .rngSchema => [done (.say (schemaOf w (prev.contains .flat) (lastOf pathOf prev)))]
  | .restart _ => [fails .runtime]
  | .info n => [(.info n, w.info n)]
  | _ => []

/-- The same for all arguments. -/
def shownAll (w : World) (prev : List Item) : List Item → List Step
  | [] => []
  | i :: r => shown w prev i ++ shownAll w (prev ++ [i]) r

/-- The input that the program takes: none without a positional argument, else the last one named. -/
def inputOf (items : List Item) : Option Txt :=
  match items.filterMap posOf with
  | [] => none
  | _ => lastOf nameOf items

/-- The steps for the arguments of a command line. -/
noncomputable def mainSteps (w : World) (items : List Item) : List Step :=
  let out := (lastOf outputOf items).getD "cyclus.sqlite".toList
  let fmt := (lastOf formatsOf items).getD "none".toList
  let job (print : Bool) := loadSteps w (inputOf items) fmt out (fun _ => []) (lastOf pathOf items) (items.contains .flat) print
  shownAll w [] items ++
    if 1 < (items.filterMap posOf).length then [fails .exit]
    else if items.contains .rngPrint then job true
    else match inputOf items with
      | none => []
      | some _ => job false ++ [(.run, w.sim), done .flush, done (.success out)]

end Cyclus.PyMain
