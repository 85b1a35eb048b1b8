import Verif.Model.Module
/-!
What the user expects of the module the macro expands to.
-/
set_option autoImplicit false

namespace Oak

/-- An import. -/
def MItem.import? : MItem → Option String
  | .use p => some p
  | _ => none

/-- An item that is neither an import nor a function. -/
def MItem.plain? : MItem → Option Item
  | .user (.fn _) => none
  | .user i => some i
  | _ => none

/-- A function of the user. -/
def MItem.userFn? : MItem → Option RustFn
  | .user (.fn f) => some f
  | _ => none

/-- A generated function. -/
def MItem.gen? : MItem → Option GenFn
  | .gen f => some f
  | _ => none

/-- The name of a function. -/
def MItem.fnName? : MItem → Option String
  | .user (.fn f) => some f.name
  | .gen f => some f.name
  | _ => none

/-- The imports of a module. -/
def imports (M : List MItem) : List String := M.filterMap MItem.import?

/-- The items of a module that are neither imports nor functions. -/
def plainItems (M : List MItem) : List Item := M.filterMap MItem.plain?

/-- The functions of the user in a module. -/
def userFns (M : List MItem) : List RustFn := M.filterMap MItem.userFn?

/-- The generated functions of a module. -/
def genFns (M : List MItem) : List GenFn := M.filterMap MItem.gen?

/-- The names of the functions of a module. -/
def fnNames (M : List MItem) : List String := M.filterMap MItem.fnName?

/-- An item of the user is a function. -/
def Item.fn? : Item → Option RustFn
  | .fn f => some f
  | _ => none

/-- An item of the user is the alias `type Stream = ..;`. -/
def Item.isStream : Item → Bool
  | .alias "Stream" _ => true
  | _ => false

/-- The module that is expected for a grammar. -/
structure ModuleOf (F : FGrammar) (M : List MItem) : Prop where
  /-- Three imports. -/
  imports : imports M = ["oak_runtime::stream::*", "oak_runtime::str_stream::StrStream", "std::ops::Range"]
  /-- The items of the user that are not functions, in the order of the grammar, and the alias `Stream = StrStream` if the user gives none. -/
  items : plainItems M = F.items.filter (fun i => i.fn?.isNone) ++ if F.items.any Item.isStream then [] else [.alias "Stream" "StrStream"]
  /-- Every function of the user, once. -/
  functions : (userFns M).Perm (F.items.filterMap Item.fn?)
  /-- A recognizer and a parser for each rule. -/
  generated : (genFns M).map (·.name) = F.rules.flatMap fun r => ["recognize_" ++ r.1, "parse_" ++ r.1]
  /-- Nothing else. -/
  total : M.length = 3 + (plainItems M).length + (userFns M).length + (genFns M).length

/-- The body of the generated function that a path denotes in a module, if any. -/
def linked (M : List MItem) (p : Path) : Option Fn := ((genFns M).find? fun g => [g.name] == p).map (·.fn)

end Oak
