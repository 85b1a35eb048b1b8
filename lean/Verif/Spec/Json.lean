import Verif.Spec.Calculator
/-!
# Specification: the language of the JSON grammar

The language of `tests/grammars/json.rs`, independently of parsing expression grammars: lexemes separated by spaces, and an ordinary context-free grammar. It is a part of JSON:
numbers are natural numbers, the characters of strings are those of `isStrChar` (no escapes), arrays have at least one element, there is no `true`, `false` and `null`.
-/
set_option autoImplicit false

namespace Oak.JsonText
open Oak Calculator

/-- Data: `JSONExpr` and `JSONPair` of json.rs:71-83. -/
inductive Data where
  | num (n : Nat)
  | str (cs : List Char)
  | arr (vs : List Data)
  | obj (ms : List (List Char × Data))

/-! ## Lexemes -/

/-- Characters of strings. -/
def isStrChar (c : Char) : Bool := isWord c || "() ,.:&'/@?*=;-".toList.contains c

/-- Lexemes. -/
inductive Token where
  | num (ds : List Char)
  | str (cs : List Char)
  | sym (c : Char)

/-- The text of a lexeme. -/
def Token.chars : Token → List Char
  | .num ds => ds
  | .str cs => '"' :: cs ++ ['"']
  | .sym c => [c]

/-- Well-formed lexemes. -/
def Token.Valid : Token → Prop
  | .num ds => ds ≠ [] ∧ ∀ c ∈ ds, isDigit c = true
  | .str cs => ∀ c ∈ cs, isStrChar c = true
  | .sym _ => True

/-- The characters that would be read with the lexeme if they came just after it. -/
def Token.glues : Token → Char → Bool
  | .num _ => isDigit
  | _ => fun _ => false

/-- The text `s` starts with the lexemes `ls`, each followed by spaces, and `rest` remains. -/
inductive Lexed : List Token → List Char → List Char → Prop where
  | nil {s} : Lexed [] s s
  | cons {l sp s ls rest} : l.Valid → (∀ c ∈ sp, isSpace c = true) → NotStart isSpace s → NotStart l.glues (sp ++ s) → Lexed ls s rest →
      Lexed (l :: ls) (l.chars ++ (sp ++ s)) rest

/-! ## Syntax -/

mutual
/-- Values. -/
inductive Value : Data → List Token → Prop where
  | num {ds} : Value (.num (decimal ds)) [.num ds]
  | str {cs} : Value (.str cs) [.str cs]
  | arr {vs ls} : Items vs ls → Value (.arr vs) (.sym '[' :: ls ++ [.sym ']'])
  | empty : Value (.obj []) [.sym '{', .sym '}']
  | obj {ms ls} : Members ms ls → Value (.obj ms) (.sym '{' :: ls ++ [.sym '}'])
/-- Values separated by commas, at least one. -/
inductive Items : List Data → List Token → Prop where
  | one {v ls} : Value v ls → Items [v] ls
  | cons {v l1 vs l2} : Value v l1 → Items vs l2 → Items (v :: vs) (l1 ++ .sym ',' :: l2)
/-- Pairs separated by commas, at least one. -/
inductive Members : List (List Char × Data) → List Token → Prop where
  | one {k v ls} : Value v ls → Members [(k, v)] (.str k :: .sym ':' :: ls)
  | cons {k v l1 ms l2} : Value v l1 → Members ms l2 → Members ((k, v) :: ms) (.str k :: .sym ':' :: (l1 ++ .sym ',' :: l2))
end

/-- The text `s` is a way to write the data `d`. -/
def Written (d : Data) (s : List Char) : Prop :=
  ∃ sp s1 ls, s = sp ++ s1 ∧ (∀ c ∈ sp, isSpace c = true) ∧ NotStart isSpace s1 ∧ Lexed ls s1 [] ∧ Value d ls

/-! ## The functions of the user -/

/-- `to_string` on characters, json.rs:125-127. -/
def strVal (cs : List Char) : Val := .app ["to_string"] [.list (cs.map .chr)]

mutual
/-- The value of type `Box<JSONExpr>` computed by the functions of json.rs:87-127 when they are called as the term of calls `x` says is the data `d`.
(Unless one of the calls panics: see `PanickingCall`.) -/
inductive Denotes : Val → Data → Prop where
  /-- json.rs:87-89 and 120-122 -/
  | num {ds} : Denotes (.app ["make_json_number"] [.app ["to_number"] [.list (ds.map .chr)]]) (.num (decimal ds))
  /-- json.rs:91-93 -/
  | str {cs} : Denotes (.app ["make_json_string"] [strVal cs]) (.str cs)
  /-- json.rs:99-106: the last element is pushed after the others -/
  | arr {xs x vs v} : DenotesAll xs vs → Denotes x v → Denotes (.app ["make_json_array"] [.list xs, x]) (.arr (vs ++ [v]))
  /-- json.rs:116-118, `None` -/
  | empty : Denotes (.app ["make_json_object"] [.none]) (.obj [])
  /-- json.rs:116-118, `Some`, and 108-114: the first pair, and the others -/
  | obj {p ps k v ms} : DenotesPair p k v → DenotesPairs ps ms → Denotes (.app ["make_json_object"] [.some (.app ["make_json_member"] [p, .list ps])]) (.obj ((k, v) :: ms))
/-- The same for lists. -/
inductive DenotesAll : List Val → List Data → Prop where
  | nil : DenotesAll [] []
  | cons {x xs v vs} : Denotes x v → DenotesAll xs vs → DenotesAll (x :: xs) (v :: vs)
/-- The same for pairs, json.rs:95-97. -/
inductive DenotesPair : Val → List Char → Data → Prop where
  | mk {k x v} : Denotes x v → DenotesPair (.app ["make_json_pair"] [strVal k, x]) k v
/-- The same for lists of pairs. -/
inductive DenotesPairs : List Val → List (List Char × Data) → Prop where
  | nil : DenotesPairs [] []
  | cons {p ps k v ms} : DenotesPair p k v → DenotesPairs ps ms → DenotesPairs (p :: ps) ((k, v) :: ms)
end

mutual
/-- The numbers of the data. A call of `to_number` (json.rs:120-122) panics when the number does not fit in 32 bits. -/
def Data.numbers : Data → List Nat
  | .num n => [n]
  | .str _ => []
  | .arr vs => numbersAll vs
  | .obj ms => numbersPairs ms
/-- The same for lists. -/
def numbersAll : List Data → List Nat
  | [] => []
  | v :: vs => v.numbers ++ numbersAll vs
/-- The same for pairs. -/
def numbersPairs : List (List Char × Data) → List Nat
  | [] => []
  | p :: ms => numbersPair p ++ numbersPairs ms
/-- The same for one pair. -/
def numbersPair : List Char × Data → List Nat
  | (_, v) => v.numbers
end

/-! ## The number of calls -/

mutual
/-- The number of calls of functions of json.rs made to read a data: the last element of an array is read twice. -/
def Data.calls : Data → Nat
  | .num _ => 2
  | .str _ => 2
  | .arr vs => callsAll vs + 1
  | .obj ms => callsPairs ms + (if ms.isEmpty then 1 else 2)
/-- The elements of an array. -/
def callsAll : List Data → Nat
  | [] => 0
  | v :: vs => v.calls * (if vs.isEmpty then 2 else 1) + callsAll vs
/-- The pairs of an object. -/
def callsPairs : List (List Char × Data) → Nat
  | [] => 0
  | p :: ms => callsPair p + callsPairs ms
/-- A pair. -/
def callsPair : List Char × Data → Nat
  | (_, v) => v.calls + 2
end

/-- `n` arrays around a number. -/
def nested : Nat → Data
  | 0 => .num 1
  | n + 1 => .arr [nested n]

/-! ## Writing data -/

mutual
/-- The data that can be written: the characters of strings are those of the grammar, arrays are not empty. -/
def Data.Writable : Data → Prop
  | .num _ => True
  | .str cs => ∀ c ∈ cs, isStrChar c = true
  | .arr vs => vs ≠ [] ∧ WritableAll vs
  | .obj ms => WritablePairs ms
/-- The same for lists. -/
def WritableAll : List Data → Prop
  | [] => True
  | v :: vs => v.Writable ∧ WritableAll vs
/-- The same for lists of pairs. -/
def WritablePairs : List (List Char × Data) → Prop
  | [] => True
  | p :: ms => WritablePair p ∧ WritablePairs ms
/-- The same for pairs. -/
def WritablePair : List Char × Data → Prop
  | (k, v) => (∀ c ∈ k, isStrChar c = true) ∧ v.Writable
end

mutual
/-- A text of the data. -/
def Data.text : Data → List Char
  | .num n => digits n
  | .str cs => '"' :: (cs ++ ['"'])
  | .arr vs => '[' :: (textAll vs ++ [']'])
  | .obj ms => '{' :: (textPairs ms ++ ['}'])
/-- Elements separated by commas. -/
def textAll : List Data → List Char
  | [] => []
  | v :: vs => v.text ++ (if vs.isEmpty then [] else ',' :: textAll vs)
/-- Pairs separated by commas. -/
def textPairs : List (List Char × Data) → List Char
  | [] => []
  | p :: ms => textPair p ++ (if ms.isEmpty then [] else ',' :: textPairs ms)
/-- A pair. -/
def textPair : List Char × Data → List Char
  | (k, v) => '"' :: (k ++ '"' :: ':' :: v.text)
end

end Oak.JsonText
