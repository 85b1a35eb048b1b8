import Verif.Model.Compiler
/-!
Model of the texts of the generated identifiers: `src/liboak/back/name_factory.rs`.

An identifier is a `String`. `format_ident!` panics when the text is not a Rust identifier; `C29_identifier` shows that it is one.
-/
set_option autoImplicit false

namespace Oak

/-- `LETTERS[x] as char`, name_factory.rs:90, 96. -/
def letter (x : Nat) : Char := Char.ofNat ('a'.toNat + x)

/-- The loop of `next_var_prefix`, name_factory.rs:92-97: letters in base 26, the least significant first. -/
def varPrefix (n : Nat) : List Char :=
  if n > 0 then letter (n % 26) :: varPrefix (n / 26) else []
termination_by n
decreasing_by omega

namespace NameFactory

/-- `next_mark_name`, name_factory.rs:62-65. -/
def nextMarkName (f : NameFactory) : String × NameFactory :=
  let f := { f with markUid := f.markUid + 1 }
  ("mark" ++ f.markUid.repr, f)

/-- `next_branch_failed_name`, name_factory.rs:67-70. -/
def nextBranchFailedName (f : NameFactory) : String × NameFactory :=
  let f := { f with branchFailedUid := f.branchFailedUid + 1 }
  ("branch_failed_" ++ f.branchFailedUid.repr, f)

/-- `next_closure_name`, name_factory.rs:72-75. -/
def nextClosureName (f : NameFactory) : String × NameFactory :=
  let f := { f with closureUid := f.closureUid + 1 }
  ("success_continuation_" ++ f.closureUid.repr, f)

/-- `next_counter_name`, name_factory.rs:77-80. -/
def nextCounterName (f : NameFactory) : String × NameFactory :=
  let f := { f with counterUid := f.counterUid + 1 }
  ("counter" ++ f.counterUid.repr, f)

/-- `next_var_prefix`, name_factory.rs:89-100. -/
def nextVarPrefix (f : NameFactory) : String × NameFactory :=
  (String.ofList (varPrefix f.prefixUid), { f with prefixUid := f.prefixUid + 1 })

/-- `fresh_vars`, name_factory.rs:82-87. -/
def freshVarNames (f : NameFactory) (cardinality : Nat) : List String × NameFactory :=
  let (pre, f) := f.nextVarPrefix
  ((List.range cardinality).map fun i => pre ++ i.repr, f)

end NameFactory

/-- The text of the identifiers of the generated code: those of the factory (name_factory.rs:62-100), `x` (character_class.rs:20-22) and
`is_success` (syntactic_predicate.rs:50). -/
def Name.text : Name → String
  | .var p i => String.ofList (varPrefix p) ++ i.repr
  | .mark n => "mark" ++ n.repr
  | .branchFailed n => "branch_failed_" ++ n.repr
  | .counter n => "counter" ++ n.repr
  | .x => "x"
  | .isSuccess => "is_success"

/-- The text of the name of a closure, name_factory.rs:72-75. -/
def closureText (k : Nat) : String := "success_continuation_" ++ k.repr

/-- `parser_id`, `recognizer_id`, name_factory.rs:33-39. -/
def FnRef.ident (parser : Bool) (r : String) : String := (if parser then "parse_" else "recognize_") ++ r

/-- `modify_path`, name_factory.rs:18-31: the prefix is added to the last segment (a path has at least one segment; the panic on an empty path is
modelled by the empty path). -/
def FnRef.text (f : FnRef) : Path :=
  match f.path.getLast? with
  | some r => f.path.dropLast ++ [FnRef.ident f.parser r]
  | none => []

end Oak
