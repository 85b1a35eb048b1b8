import Verif.Model.Front
/-!
The grammars of `tests/grammars/*.rs`, as tokens.  Written by `scripts/corpus.py`; the bodies of the items are not kept.
-/
set_option autoImplicit false

namespace Oak.Corpus

/-- tests/grammars/calc.rs -/
def calcGrammar : List Tok := [
  .item (.alias "Stream" "StrStream<'a>"), .path ["program"], .punct '=' false, .path ["spacing"], .path ["expression"], .path ["expression"],
  .punct '=' false, .path ["term"], .paren [.path ["term_op"], .path ["term"]], .punct '*' false, .punct '>' false, .path ["fold_left"],
  .path ["term"], .punct '=' false, .path ["exponent"], .paren [.path ["factor_op"], .path ["exponent"]], .punct '*' false, .punct '>' false,
  .path ["fold_left"], .path ["exponent"], .punct '=' false, .paren [.path ["factor"], .path ["exponent_op"]], .punct '*' false, .path ["factor"],
  .punct '>' false, .path ["fold_right"], .path ["factor"], .punct '=' false, .path ["number"], .punct '>' false, .path ["number_expr"],
  .punct '/' false, .path ["identifier"], .punct '>' false, .path ["variable_expr"], .punct '/' false, .path ["let_expr"], .punct '>' false,
  .path ["let_in_expr"], .punct '/' false, .path ["lparen"], .path ["expression"], .path ["rparen"], .path ["let_expr"], .punct '=' false,
  .path ["let_kw"], .path ["let_binding"], .path ["in_kw"], .path ["expression"], .path ["let_binding"], .punct '=' false, .path ["identifier"],
  .path ["bind_op"], .path ["expression"], .path ["term_op"], .punct '=' false, .path ["add_op"], .punct '>' false, .path ["add_bin_op"],
  .punct '/' false, .path ["sub_op"], .punct '>' false, .path ["sub_bin_op"], .path ["factor_op"], .punct '=' false, .path ["mul_op"],
  .punct '>' false, .path ["mul_bin_op"], .punct '/' false, .path ["div_op"], .punct '>' false, .path ["div_bin_op"], .path ["exponent_op"],
  .punct '=' false, .path ["exp_op"], .punct '>' false, .path ["exp_bin_op"], .path ["identifier"], .punct '=' false, .punct '!' false,
  .path ["digit"], .punct '!' false, .path ["keyword"], .path ["ident_char"], .punct '+' false, .path ["spacing"], .punct '>' false,
  .path ["to_string"], .path ["ident_char"], .punct '=' false, .bracket [.lit "a-zA-Z0-9_"], .path ["digit"], .punct '=' false, .bracket [.lit "0-9"],
  .path ["number"], .punct '=' false, .path ["digit"], .punct '+' false, .path ["spacing"], .punct '>' false, .path ["to_number"], .path ["spacing"],
  .punct '=' false, .bracket [.lit " \n\r\t"], .punct '*' true, .punct ':' false, .paren [.punct '^' false], .path ["kw_tail"], .punct '=' false,
  .punct '!' false, .path ["ident_char"], .path ["spacing"], .path ["keyword"], .punct '=' false, .path ["let_kw"], .punct '/' false, .path ["in_kw"],
  .path ["let_kw"], .punct '=' false, .lit "let", .path ["kw_tail"], .path ["in_kw"], .punct '=' false, .lit "in", .path ["kw_tail"],
  .path ["bind_op"], .punct '=' false, .lit "=", .path ["spacing"], .path ["add_op"], .punct '=' false, .lit "+", .path ["spacing"], .path ["sub_op"],
  .punct '=' false, .lit "-", .path ["spacing"], .path ["mul_op"], .punct '=' false, .lit "*", .path ["spacing"], .path ["div_op"], .punct '=' false,
  .lit "/", .path ["spacing"], .path ["exp_op"], .punct '=' false, .lit "^", .path ["spacing"], .path ["lparen"], .punct '=' false, .lit "(",
  .path ["spacing"], .path ["rparen"], .punct '=' false, .lit ")", .path ["spacing"], .item (.other "use std::str::FromStr;"),
  .item (.other "use self::Expression::*;"), .item (.other "use self::BinOp::*;"), .item (.alias "PExpr" "Box<Expression>"),
  .item (.other "#[derive(Debug)]pub enum Expression{Variable(String),Number(u32),BinaryExpr(BinOp,PExpr,PExpr),LetIn(String,PExpr,PExpr)}"),
  .item (.other "#[derive(Debug)]pub enum BinOp{Add,Sub,Mul,Div,Exp}"), .item (.fn ⟨"to_number", .ty "u32"⟩),
  .item (.fn ⟨"number_expr", .ty "PExpr"⟩), .item (.fn ⟨"variable_expr", .ty "PExpr"⟩), .item (.fn ⟨"to_string", .ty "String"⟩),
  .item (.fn ⟨"fold_left", .ty "PExpr"⟩), .item (.fn ⟨"fold_right", .ty "PExpr"⟩), .item (.fn ⟨"let_in_expr", .ty "PExpr"⟩),
  .item (.fn ⟨"add_bin_op", .ty "BinOp"⟩), .item (.fn ⟨"sub_bin_op", .ty "BinOp"⟩), .item (.fn ⟨"mul_bin_op", .ty "BinOp"⟩),
  .item (.fn ⟨"div_bin_op", .ty "BinOp"⟩), .item (.fn ⟨"exp_bin_op", .ty "BinOp"⟩)]

/-- tests/grammars/calc2.rs -/
def calc2Grammar : List Tok := [
  .item (.alias "Stream" "StrStream<'a>"), .path ["program"], .punct '=' false, .path ["spacing"], .path ["expression"], .path ["expression"],
  .punct '=' false, .path ["term"], .paren [.path ["term_op"], .path ["term"]], .punct '*' false, .punct '>' false, .path ["fold_left"],
  .path ["term"], .punct '=' false, .path ["exponent"], .paren [.path ["factor_op"], .path ["exponent"]], .punct '*' false, .punct '>' false,
  .path ["fold_left"], .path ["exponent"], .punct '=' false, .paren [.path ["factor"], .path ["exponent_op"]], .punct '*' false, .path ["factor"],
  .punct '>' false, .path ["fold_right"], .path ["factor"], .punct ':' false, .path ["PExpr"], .punct '=' false, .path ["number"], .punct '>' false,
  .box, .path ["Number"], .punct '/' false, .path ["identifier"], .punct '>' false, .box, .path ["Variable"], .punct '/' false, .path ["let_expr"],
  .punct '>' false, .box, .path ["LetIn"], .punct '/' false, .path ["lparen"], .path ["expression"], .path ["rparen"], .path ["let_expr"],
  .punct '=' false, .path ["let_kw"], .path ["let_binding"], .path ["in_kw"], .path ["expression"], .path ["let_binding"], .punct '=' false,
  .path ["identifier"], .path ["bind_op"], .path ["expression"], .path ["term_op"], .punct ':' false, .path ["BinOp"], .punct '=' false,
  .path ["add_op"], .punct '>' false, .path ["Add"], .punct '/' false, .path ["sub_op"], .punct '>' false, .path ["Sub"], .path ["factor_op"],
  .punct ':' false, .path ["BinOp"], .punct '=' false, .path ["mul_op"], .punct '>' false, .path ["Mul"], .punct '/' false, .path ["div_op"],
  .punct '>' false, .path ["Div"], .path ["exponent_op"], .punct ':' false, .path ["BinOp"], .punct '=' false, .path ["exp_op"], .punct '>' false,
  .path ["Exp"], .path ["identifier"], .punct '=' false, .punct '!' false, .path ["digit"], .punct '!' false, .path ["keyword"], .path ["ident_char"],
  .punct '+' false, .path ["spacing"], .punct '>' false, .path ["to_string"], .path ["ident_char"], .punct '=' false, .bracket [.lit "a-zA-Z0-9_"],
  .path ["digit"], .punct '=' false, .bracket [.lit "0-9"], .path ["number"], .punct '=' false, .path ["digit"], .punct '+' false, .path ["spacing"],
  .punct '>' false, .path ["to_number"], .path ["spacing"], .punct '=' false, .bracket [.lit " \n\r\t"], .punct '*' true, .punct ':' false,
  .paren [.punct '^' false], .path ["kw_tail"], .punct '=' false, .punct '!' false, .path ["ident_char"], .path ["spacing"], .path ["keyword"],
  .punct '=' false, .path ["let_kw"], .punct '/' false, .path ["in_kw"], .path ["let_kw"], .punct '=' false, .lit "let", .path ["kw_tail"],
  .path ["in_kw"], .punct '=' false, .lit "in", .path ["kw_tail"], .path ["bind_op"], .punct '=' false, .lit "=", .path ["spacing"], .path ["add_op"],
  .punct '=' false, .lit "+", .path ["spacing"], .path ["sub_op"], .punct '=' false, .lit "-", .path ["spacing"], .path ["mul_op"], .punct '=' false,
  .lit "*", .path ["spacing"], .path ["div_op"], .punct '=' false, .lit "/", .path ["spacing"], .path ["exp_op"], .punct '=' false, .lit "^",
  .path ["spacing"], .path ["lparen"], .punct '=' false, .lit "(", .path ["spacing"], .path ["rparen"], .punct '=' false, .lit ")", .path ["spacing"],
  .item (.fn ⟨"to_number", .ty "u32"⟩), .item (.fn ⟨"to_string", .ty "String"⟩), .item (.fn ⟨"fold_left", .ty "PExpr"⟩),
  .item (.fn ⟨"fold_right", .ty "PExpr"⟩)]

/-- tests/grammars/calc3.rs -/
def calc3Grammar : List Tok := [
  .item (.alias "Stream" "StrStream<'a>"), .path ["program"], .punct '=' false, .path ["spacing"], .path ["expression"], .path ["expression"],
  .punct '=' false, .path ["term"], .paren [.path ["term_op"], .path ["term"]], .punct '*' false, .punct '>' false, .path ["fold_left"],
  .path ["term"], .punct '=' false, .path ["exponent"], .paren [.path ["factor_op"], .path ["exponent"]], .punct '*' false, .punct '>' false,
  .path ["fold_left"], .path ["exponent"], .punct '=' false, .paren [.path ["factor"], .path ["exponent_op"]], .punct '*' false, .path ["factor"],
  .punct '>' false, .path ["fold_right"], .path ["factor"], .punct ':' false, .rtype "Box<Expression>", .punct '=' false, .path ["calc2", "number"],
  .punct '>' false, .box, .path ["Number"], .punct '/' false, .path ["calc2", "identifier"], .punct '>' false, .box, .path ["Variable"],
  .punct '/' false, .path ["let_expr"], .punct '>' false, .box, .path ["LetIn"], .punct '/' false, .path ["lparen"], .path ["expression"],
  .path ["rparen"], .path ["let_expr"], .punct '=' false, .path ["let_kw"], .path ["let_binding"], .path ["in_kw"], .path ["expression"],
  .path ["let_binding"], .punct '=' false, .paren [.path ["calc2", "identifier"], .punct ':' false, .path ["String"]], .path ["bind_op"],
  .path ["expression"], .path ["term_op"], .punct ':' false, .path ["BinOp"], .punct '=' false, .path ["add_op"], .punct '>' false, .path ["Add"],
  .punct '/' false, .path ["sub_op"], .punct '>' false, .path ["Sub"], .path ["factor_op"], .punct ':' false, .path ["BinOp"], .punct '=' false,
  .path ["mul_op"], .punct '>' false, .path ["Mul"], .punct '/' false, .path ["div_op"], .punct '>' false, .path ["Div"], .path ["exponent_op"],
  .punct ':' false, .path ["BinOp"], .punct '=' false, .path ["exp_op"], .punct '>' false, .path ["Exp"], .path ["spacing"], .punct '=' false,
  .bracket [.lit " \n\r\t"], .punct '*' true, .punct ':' false, .paren [.punct '^' false], .path ["kw_tail"], .punct '=' false, .punct '!' false,
  .path ["calc2", "ident_char"], .path ["spacing"], .path ["keyword"], .punct '=' false, .path ["let_kw"], .punct '/' false, .path ["in_kw"],
  .path ["let_kw"], .punct '=' false, .lit "let", .path ["kw_tail"], .path ["in_kw"], .punct '=' false, .lit "in", .path ["kw_tail"],
  .path ["bind_op"], .punct '=' false, .lit "=", .path ["spacing"], .path ["add_op"], .punct '=' false, .lit "+", .path ["spacing"], .path ["sub_op"],
  .punct '=' false, .lit "-", .path ["spacing"], .path ["mul_op"], .punct '=' false, .lit "*", .path ["spacing"], .path ["div_op"], .punct '=' false,
  .lit "/", .path ["spacing"], .path ["exp_op"], .punct '=' false, .lit "^", .path ["spacing"], .path ["lparen"], .punct '=' false, .lit "(",
  .path ["spacing"], .path ["rparen"], .punct '=' false, .lit ")", .path ["spacing"], .item (.fn ⟨"fold_left", .ty "PExpr"⟩),
  .item (.fn ⟨"fold_right", .ty "PExpr"⟩)]

/-- tests/grammars/combinators.rs -/
def combinatorsGrammar : List Tok := [
  .path ["str_literal"], .punct '=' false, .lit "return", .path ["sequence"], .punct '=' false, .lit "if", .lit " ", .lit "then", .lit " ",
  .lit "else", .path ["any_single_char"], .punct '=' false, .punct '.' false, .punct '.' false, .path ["choice"], .punct '=' false, .lit "if",
  .punct '.' false, .lit "else", .punct '.' false, .punct '/' false, .lit "let", .punct '.' false, .punct '.' false, .punct '/' false, .lit "if ",
  .paren [.lit "-", .punct '.' false, .punct '/' false, .punct '.' false], .lit " else ",
  .paren [.lit "-", .punct '.' false, .punct '/' false, .lit "+", .punct '.' false], .path ["repeat"], .punct '=' false,
  .paren [.paren [.lit "a", .punct '/' false, .lit "b", .punct '+' false], .punct '.' false], .punct '*' false, .lit "c", .punct '*' false,
  .path ["predicate"], .punct '=' false, .punct '&' false, .lit "a", .paren [.punct '!' false, .lit "b", .punct '.' false], .punct '+' false,
  .punct '/' false, .punct '&' false, .lit "b", .paren [.punct '!' false, .lit "a", .punct '.' false], .punct '+' false, .path ["optional"],
  .punct '=' false, .lit "a", .punct '?' false, .lit "b", .paren [.lit "c", .punct '.' false, .punct '/' false, .lit "d", .punct '.' false],
  .punct '?' false, .lit "z", .path ["char_class"], .punct '=' false, .bracket [.lit "a-zA-Z12_"], .punct '+' false, .bracket [.lit "\t "],
  .punct '?' false, .bracket [.lit "-"], .path ["non_terminal"], .punct '=' false, .lit "a", .path ["non_terminal_bis"], .punct '+' false,
  .punct '.' false, .path ["non_terminal_bis"], .punct '=' false, .paren [.lit "b", .punct '.' false, .punct '/' false, .lit "c", .punct '.' false],
  .paren [.punct '!' false, .lit "d", .punct '.' false], .punct '+' false]

/-- tests/grammars/issue94.rs -/
def issue94Grammar : List Tok := [
  .path ["underscore"], .punct '=' false, .lit "_", .path ["digits"], .punct '=' false,
  .paren [.path ["underscore"], .punct '*' false, .path ["digit"]], .punct '+' false, .punct '>' false, .path ["id"], .path ["digit"],
  .punct '=' false, .bracket [.lit "0-9"], .item (.fn ⟨"id", .ty "Vec<char>"⟩)]

/-- tests/grammars/json.rs -/
def jsonGrammar : List Tok := [
  .path ["program"], .punct '=' false, .path ["spacing"], .path ["json_expr"], .path ["spacing"], .path ["json_expr"], .punct '=' false,
  .path ["number"], .punct '>' false, .path ["make_json_number"], .punct '/' false, .path ["json_string"], .punct '>' false,
  .path ["make_json_string"], .punct '/' false, .path ["json_array"], .punct '>' false, .path ["make_json_array"], .punct '/' false,
  .path ["json_object"], .punct '>' false, .path ["make_json_object"], .path ["json_object"], .punct '=' false, .path ["lbrace"],
  .path ["json_members"], .punct '?' false, .path ["spacing"], .path ["rbrace"], .path ["json_members"], .punct '=' false, .path ["json_pair"],
  .paren [.path ["coma"], .path ["json_pair"]], .punct '*' false, .punct '>' false, .path ["make_json_member"], .path ["json_pair"], .punct '=' false,
  .path ["json_string"], .path ["colon"], .path ["json_expr"], .punct '>' false, .path ["make_json_pair"], .path ["json_array"], .punct '=' false,
  .path ["lbracket"], .paren [.path ["json_expr"], .path ["coma"]], .punct '*' false, .path ["json_expr"], .path ["spacing"], .path ["rbracket"],
  .path ["json_string"], .punct '=' false, .path ["dquote"], .path ["json_char"], .punct '*' false, .path ["dquote"], .path ["spacing"],
  .punct '>' false, .path ["to_string"], .path ["dquote"], .punct '=' false, .lit "\"", .path ["spacing"], .punct '=' false,
  .bracket [.lit " \n\r\t"], .punct '*' true, .punct ':' false, .paren [.punct '^' false], .path ["digit"], .punct '=' false, .bracket [.lit "0-9"],
  .path ["colon"], .punct '=' false, .lit ":", .path ["spacing"], .path ["semicolon"], .punct '=' false, .lit ";", .path ["spacing"], .path ["coma"],
  .punct '=' false, .lit ",", .path ["spacing"], .path ["number"], .punct '=' false, .path ["digit"], .punct '+' false, .path ["spacing"],
  .punct '>' false, .path ["to_number"], .path ["not_zero_digit"], .punct '=' false, .bracket [.lit "1-9"], .path ["digits"], .punct '=' false,
  .path ["digit"], .punct '+' false, .path ["json_char"], .punct '=' false, .bracket [.lit "a-zA-Z0-9_() ,.:&'/@?*=;-"], .path ["lparen"],
  .punct '=' false, .lit "(", .path ["spacing"], .path ["rparen"], .punct '=' false, .lit ")", .path ["spacing"], .path ["lbracket"],
  .punct '=' false, .lit "[", .path ["spacing"], .path ["rbracket"], .punct '=' false, .lit "]", .path ["spacing"], .path ["lbrace"],
  .punct '=' false, .lit "{", .path ["spacing"], .path ["rbrace"], .punct '=' false, .lit "}", .path ["spacing"],
  .item (.other "use std::str::FromStr;"), .item (.alias "PExpr" "Box<JSONExpr>"),
  .item (.other "#[derive(Debug)]pub enum JSONExpr{Str(String),Number(u32),Array(Vec<Box<JSONExpr>>),Object(Option<Box<JSONPair>>)}"),
  .item (.other "#[derive(Debug)]pub enum JSONPair{Pair(String,Box<JSONExpr>),Json(Vec<Box<JSONPair>>)}"),
  .item (.fn ⟨"make_json_number", .ty "Box<JSONExpr>"⟩), .item (.fn ⟨"make_json_string", .ty "Box<JSONExpr>"⟩),
  .item (.fn ⟨"make_json_pair", .ty "Box<JSONPair>"⟩), .item (.fn ⟨"make_json_array", .ty "Box<JSONExpr>"⟩),
  .item (.fn ⟨"make_json_member", .ty "Box<JSONPair>"⟩), .item (.fn ⟨"make_json_object", .ty "Box<JSONExpr>"⟩), .item (.fn ⟨"to_number", .ty "u32"⟩),
  .item (.fn ⟨"to_string", .ty "String"⟩)]

/-- tests/grammars/ntcc.rs -/
def ntccGrammar : List Tok := [
  .path ["ntcc"], .punct '=' false, .path ["spacing"], .path ["expression"], .punct ':' false, .paren [.punct '^' false], .path ["expression"],
  .punct '=' false, .path ["sum"], .punct '/' false, .path ["par"], .punct '/' false, .path ["tell"], .punct '/' false, .path ["next"],
  .punct '/' false, .path ["async"], .punct '/' false, .path ["rep"], .punct '/' false, .path ["unless"], .punct '/' false, .path ["let_in"],
  .punct '/' false, .path ["skip_kw"], .path ["sum"], .punct '=' false, .path ["pick_kw"], .path ["or"], .punct '?' false, .path ["when"],
  .path ["sum_body"], .punct '*' false, .path ["end_kw"], .punct '?' false, .path ["sum_body"], .punct '=' false,
  .paren [.path ["or"], .path ["when"]], .punct ':' false, .paren [.punct '^' false], .path ["par"], .punct '=' false, .path ["par_kw"],
  .path ["oror"], .punct '?' false, .path ["expression"], .path ["par_body"], .punct '*' false, .path ["end_kw"], .punct '?' false,
  .path ["par_body"], .punct '=' false, .paren [.path ["oror"], .path ["expression"]], .punct ':' false, .paren [.punct '^' false], .path ["tell"],
  .punct '=' false, .path ["store_kw"], .path ["left_arrow"], .path ["constraint"], .path ["next"], .punct '=' false, .path ["next_kw"],
  .path ["expression"], .path ["async"], .punct '=' false, .path ["async_kw"], .path ["expression"], .path ["rep"], .punct '=' false,
  .path ["rep_kw"], .path ["expression"], .path ["unless"], .punct '=' false, .path ["unless_kw"], .path ["entailed_by"], .path ["next"],
  .path ["when"], .punct '=' false, .path ["when_kw"], .path ["entails"], .path ["right_arrow"], .path ["expression"], .path ["entails"],
  .punct '=' false, .path ["store_kw"], .path ["entail"], .path ["constraint"], .path ["entailed_by"], .punct '=' false, .path ["constraint"],
  .path ["entail"], .path ["store_kw"], .path ["constraint"], .punct '=' false, .path ["constraint_operand"], .path ["comparison"],
  .path ["constraint_operand"], .path ["constraint_operand"], .punct '=' false, .path ["integer"], .punct '/' false, .path ["var_ident"],
  .path ["comparison"], .punct '=' false, .path ["le"], .punct '/' false, .path ["neq"], .punct '/' false, .path ["lt"], .punct '/' false,
  .path ["ge"], .punct '/' false, .path ["gt"], .punct '/' false, .path ["eq"], .path ["spacing"], .punct '=' false, .bracket [.lit " \n\t"],
  .punct '*' true, .punct ':' false, .paren [.punct '^' false], .path ["let_in"], .punct '=' false, .path ["let_kw"], .path ["var_decl"],
  .path ["in_kw"], .path ["expression"], .path ["var_decl"], .punct '=' false, .path ["var_ident"], .path ["eq_bind"], .path ["var_range"],
  .path ["var_range"], .punct '=' false, .path ["range"], .punct '/' false, .path ["domain"], .path ["domain"], .punct '=' false, .path ["dom_kw"],
  .path ["var_ident"], .path ["range"], .punct '=' false, .path ["range_bound"], .path ["dotdot"], .path ["range_bound"], .path ["range_bound"],
  .punct '=' false, .path ["integer"], .punct '/' false, .path ["min_bound"], .punct '/' false, .path ["max_bound"], .path ["min_bound"],
  .punct '=' false, .path ["min_kw"], .path ["var_ident"], .path ["max_bound"], .punct '=' false, .path ["max_kw"], .path ["var_ident"],
  .path ["integer"], .punct ':' false, .paren [.punct '^' false], .punct '=' false, .bracket [.lit "0-9"], .punct '+' false, .path ["spacing"],
  .path ["var_ident"], .punct ':' false, .paren [.punct '^' false], .punct '=' false, .punct '!' false, .bracket [.lit "0-9"],
  .bracket [.lit "a-zA-Z0-9_"], .punct '+' false, .path ["spacing"], .path ["pick_kw"], .punct '=' false, .lit "pick", .path ["spacing"],
  .path ["when_kw"], .punct '=' false, .lit "when", .path ["spacing"], .path ["store_kw"], .punct '=' false, .lit "store", .path ["spacing"],
  .path ["skip_kw"], .punct '=' false, .lit "skip", .path ["spacing"], .path ["let_kw"], .punct '=' false, .lit "let", .path ["spacing"],
  .path ["in_kw"], .punct '=' false, .lit "in", .path ["spacing"], .path ["dom_kw"], .punct '=' false, .lit "dom", .path ["spacing"],
  .path ["min_kw"], .punct '=' false, .lit "min", .path ["spacing"], .path ["max_kw"], .punct '=' false, .lit "max", .path ["spacing"],
  .path ["end_kw"], .punct '=' false, .lit "end", .path ["spacing"], .path ["par_kw"], .punct '=' false, .lit "par", .path ["spacing"],
  .path ["next_kw"], .punct '=' false, .lit "next", .path ["spacing"], .path ["async_kw"], .punct '=' false, .lit "async", .path ["spacing"],
  .path ["rep_kw"], .punct '=' false, .lit "rep", .path ["spacing"], .path ["unless_kw"], .punct '=' false, .lit "unless", .path ["spacing"],
  .path ["or"], .punct '=' false, .lit "|", .path ["spacing"], .path ["oror"], .punct '=' false, .lit "||", .path ["spacing"], .path ["entail"],
  .punct '=' false, .lit "|=", .path ["spacing"], .path ["lt"], .punct '=' false, .lit "<", .path ["spacing"], .path ["le"], .punct '=' false,
  .lit "<=", .path ["spacing"], .path ["gt"], .punct '=' false, .lit ">", .path ["spacing"], .path ["ge"], .punct '=' false, .lit ">=",
  .path ["spacing"], .path ["eq"], .punct '=' false, .lit "==", .path ["spacing"], .path ["neq"], .punct '=' false, .lit "<>", .path ["spacing"],
  .path ["right_arrow"], .punct '=' false, .lit "->", .path ["spacing"], .path ["left_arrow"], .punct '=' false, .lit "<-", .path ["spacing"],
  .path ["dotdot"], .punct '=' false, .lit "..", .path ["spacing"], .path ["eq_bind"], .punct '=' false, .lit "=", .path ["spacing"]]

/-- tests/grammars/recursive_type.rs -/
def recursive_typeGrammar : List Tok := [
  .path ["r"], .punct '=' false, .lit "a", .path ["r"], .punct '/' false, .lit "b", .path ["factor"], .punct '=' false, .path ["integer"],
  .punct '/' false, .path ["unary_arith_expr"], .path ["unary_arith_expr"], .punct '=' false, .lit "+", .path ["factor"], .punct '>' false,
  .path ["id"], .punct '/' false, .lit "-", .path ["factor"], .punct '>' false, .path ["make_neg_expr"], .path ["integer"], .punct '=' false,
  .bracket [.lit "0-9"], .punct '+' false, .punct '>' false, .path ["make_integer"], .item (.other "use std::str::FromStr;"),
  .item (.other "pub enum Expr{Number(u64),NegExpr(PExpr)}"), .item (.alias "PExpr" "Box<Expr>"), .item (.fn ⟨"id", .ty "PExpr"⟩),
  .item (.fn ⟨"make_integer", .ty "PExpr"⟩), .item (.fn ⟨"to_string", .ty "String"⟩), .item (.fn ⟨"make_neg_expr", .ty "PExpr"⟩)]

/-- tests/grammars/stream_span.rs -/
def stream_spanGrammar : List Tok := [
  .item (.alias "Stream" "StrStream<'a>"), .path ["expr"], .punct '=' false, .punct '.' true, .punct '.' false, .path ["span_a"], .punct '.' false,
  .paren [.punct '.' true, .punct '.' false, .punct '.' false], .lit "b", .punct '>' false, .path ["make_expr"], .path ["expr2"], .punct '=' false,
  .punct '.' true, .punct '.' false, .path ["span_a"], .punct '.' false, .path ["inner_expr"], .lit "b", .punct '>' false, .path ["make_expr"],
  .path ["inner_expr"], .punct '=' false, .paren [.punct '.' true, .punct '.' false, .paren [.punct '.' true, .punct '/' true, .punct '.' false]],
  .path ["span_a"], .punct '=' false, .punct '.' true, .punct '.' false, .lit "a", .path ["expr3"], .punct '=' false, .punct '.' true,
  .punct '.' false, .paren [.lit "a", .punct '/' false, .lit "b"], .lit "c",
  .item (.other "pub struct Expr{pub full_sp:Span,pub span_a:Span,pub c2:char,pub c3_sp:Span,pub c3:char}"), .item (.fn ⟨"make_expr", .ty "Expr"⟩)]

/-- tests/grammars/type_name.rs -/
def type_nameGrammar : List Tok := [
  .path ["lparen"], .punct '=' false, .lit "(", .path ["spacing"], .path ["type_name"], .punct '=' false, .path ["auto_infer_kw"], .punct '&' false,
  .paren [.path ["lparen"], .punct '/' false, .path ["not_eof"], .punct '/' false, .path ["comma"]], .punct '/' false, .path ["ident"],
  .path ["type_names"], .punct '=' false, .path ["spacing"], .path ["type_name"],
  .paren [.path ["lparen"], .path ["type_names"], .paren [.path ["comma"], .path ["type_names"]], .punct '*' false, .path ["rparen"]],
  .punct '?' false, .path ["spacing"], .punct '=' false, .bracket [.lit " \n\t"], .punct '*' true, .punct ':' false, .paren [.punct '^' false],
  .path ["ident"], .punct '=' false,
  .paren [.punct '!' false, .bracket [.lit "0-9"], .bracket [.lit "a-zA-Z0-9_"], .punct '+' false, .path ["spacing"]], .punct ':' false,
  .paren [.punct '^' false], .path ["auto_infer_kw"], .punct '=' false, .lit "_", .path ["spacing"], .path ["rparen"], .punct '=' false, .lit ")",
  .path ["spacing"], .path ["not_eof"], .punct '=' false, .punct '!' true, .punct '.' false, .path ["comma"], .punct '=' false, .lit ",",
  .path ["spacing"]]

/-- tests/grammars/typing.rs -/
def typingGrammar : List Tok := [
  .path ["ra"], .punct '=' false, .lit "a", .path ["ra"], .punct '/' false, .lit "b", .punct '.' false, .path ["rd"], .punct '=' false, .lit "a",
  .path ["rd"], .path ["re"], .punct '=' false, .punct '.' false, .path ["re"], .path ["factor"], .punct ':' false, .path ["Expr"], .punct '=' false,
  .path ["number"], .punct '>' false, .path ["Expr", "Number"], .punct '/' false, .path ["identifier"], .punct '>' false, .path ["Expr", "Variable"],
  .punct '/' false, .path ["lparen"], .path ["factor"], .path ["rparen"], .path ["lparen"], .punct '=' false, .lit "(", .path ["rparen"],
  .punct '=' false, .lit ")", .path ["number"], .punct '=' false, .bracket [.lit "0-9"], .punct '+' false, .path ["identifier"], .punct '=' false,
  .bracket [.lit "a-z"], .punct '+' false, .item (.other "pub enum Expr{Number(Vec<char>),Variable(Vec<char>)}"), .path ["rule1"], .punct '=' false,
  .lit "a", .punct '>' false, .path ["test2"], .item (.alias "MyUnit" "()"), .item (.fn ⟨"test2", .ty "MyUnit"⟩), .item (.fn ⟨"test3", .ty "()"⟩),
  .item (.fn ⟨"test4", .default⟩), .path ["rule4"], .punct '=' false, .lit "\"foo\"", .path ["rule5"], .punct '=' false, .lit "foo #\"# bar"]

/-- tests/grammars/unreachable_rule.rs -/
def unreachable_ruleGrammar : List Tok := [
  .path ["test2"], .punct '=' false, .lit "ab", .punct '/' false, .lit "a"]

/-- tests/grammars/useless_chaining.rs -/
def useless_chainingGrammar : List Tok := [
  .path ["test9"], .punct '=' false, .punct '!' false, .lit "a"]

/-- tests/grammars/well_formedness.rs -/
def well_formednessGrammar : List Tok := [
  .path ["b"], .punct '=' false, .lit "a", .path ["b"], .lit "b", .punct '/' false, .lit "b", .path ["b"], .path ["g"], .punct '=' false,
  .punct '.' false, .punct '/' false, .punct '!' false, .path ["g1"], .punct '.' false, .path ["g1"], .punct '=' false, .punct '.' false,
  .punct '/' false, .lit "a", .punct '?' false, .path ["g2"], .punct '/' false, .lit "c", .punct '.' false, .path ["g2"], .punct '=' false, .lit "b",
  .punct '+' false, .path ["g"], .path ["h"], .punct '=' false, .punct '.' false, .punct '/' false, .paren [.lit "a", .lit "b"], .punct '+' false,
  .punct '!' false, .path ["h1"], .punct '.' false, .path ["h1"], .punct '=' false, .punct '.' false, .punct '/' false, .lit "a", .punct '?' false,
  .path ["h"], .punct '/' false, .lit "c", .punct '.' false, .path ["s"], .punct '=' false, .punct '&' false, .bracket [.lit "a-z"], .lit "a",
  .punct '/' false, .lit "A", .punct '+' false, .path ["s2"], .punct '=' false, .path ["s"], .punct '*' false, .path ["w1"], .punct '=' false,
  .punct '&' false, .paren [.lit "x", .punct '+' false], .path ["w4"], .punct '=' false, .punct '!' false, .paren [.lit "x", .punct '+' false]]

end Oak.Corpus
