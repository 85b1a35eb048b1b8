# The model against the test-suite of the repository

The sandbox cannot build the project, but the repository says what its tests expect. `scripts/corpus.py run` reads the grammars of `tests/grammars/*.rs` as tokens
(`lean/Verif/Corpus/Grammars.lean`) and writes `/tmp/conformance.lean`; run it with `lake env lean /tmp/conformance.lean` in `lean/`. It runs the model of the whole macro on each
grammar, then the generated functions (recognizer and parser) on the inputs of `data/test`, as `tests/testoak.rs` does, and compares the outcome (full match, partial match,
error) with the expected one. These are tests of the model, not proofs.

```
calc: 54 functions, 12 inputs, 0 differences
calc2: 54 functions, 12 inputs, 0 differences
calc3: 46 functions, 12 inputs, 0 differences
combinators: 20 functions, 107 inputs, 0 differences
ntcc: 112 functions, 23 inputs, 0 differences
type_name: 18 functions, 9 inputs, 0 differences
```

Rules that are commented out in `tests/grammars/well_formedness.rs` and `useless_chaining.rs`, with the remark of the authors and what the model reports. The only difference is
`j1 = ("" !j)+`: the remark says left recursion, but `j = . j1` reads a character before `j1`; the model (and, by reading, the code) reports the loop.

```
a = a "a" / "b"   --   ERROR: left recursion
      => rejected: [left recursion]
c = "a" c "b" / c "b"   --   ERROR: left recursion
      => rejected: [left recursion]
d = "a" . / d1; d1 = d   --   ERROR: left recursion
      => rejected: [left recursion]
e = "a" . / e1; e1 = "b" . / e / "c" .   --   ERROR: left recursion
      => rejected: [left recursion]
f = . / !f1 .; f1 = . / "a"? f2 / "c" .; f2 = "b"* f   --   ERROR: left recursion
      => rejected: [left recursion]
i = . i1; i1 = i1+   --   ERROR: left recursion
      => rejected: [left recursion]
j = . j1; j1 = ("" !j)+   --   ERROR: left recursion
      => rejected: [loop repeat]
m = !""   --   ERROR: never succeed
      => rejected: [never succeed]
n = (!"")*   --   ERROR: never succeed
      => rejected: [loop repeat, never succeed]
w = !(.*)   --   ERROR: never succeed
      => rejected: [never succeed]
o = (!.)*   --   ERROR: loop repeat
      => rejected: [loop repeat]
p = ("a" / "b" / "")+   --   ERROR loop repeat
      => rejected: [loop repeat]
q = &["a-z"]; q2 = q+   --   ERROR: loop repeat
      => rejected: [loop repeat]
r = ["a-z"] / "A"*; r2 = r+   --   ERROR: loop repeat
      => rejected: [loop repeat]
t = ["a-z"]* / "A"+   --   ERROR: unreachable branch
      => rejected: [unreachable branch]
u = "a" .+ / .* / "Z" .+   --   ERROR: unreachable branch
      => rejected: [unreachable branch]
v = "a" .+ / "" / "Z" .+   --   ERROR: unreachable branch
      => rejected: [unreachable branch]
u1 = ("x"?)?   --   Warning useless chaining
      => accepted [useless chaining ((e?)? -> e?)]
u2 = ("x"?)+   --   ERROR: loop repeat
      => rejected: [loop repeat]
u3 = ("x"?)*   --   ERROR: loop repeat
      => rejected: [loop repeat]
u4 = ("x"+)?   --   Warning useless chaining
      => accepted [useless chaining ((e+)? -> e*)]
u5 = ("x"+)*   --   Warning useless chaining
      => accepted [useless chaining ((e+)* -> e+)]
u6 = ("x"+)+   --   Warning useless chaining
      => accepted [useless chaining ((e+)+ -> e+)]
u7 = ("x"*)?   --   Warning useless chaining
      => accepted [useless chaining ((e*)? -> e*)]
u8 = ("x"*)+   --   ERROR: loop repeat
      => rejected: [loop repeat]
u9 = ("x"*)*   --   ERROR: loop repeat
      => rejected: [loop repeat]
v1 = (&"x")+   --   ERROR: loop repeat
      => rejected: [loop repeat]
v2 = (&"x")*   --   ERROR: loop repeat
      => rejected: [loop repeat]
v3 = (&"x")?   --   ERROR: always succeed, never consume
      => rejected: [always succeed, never consume]
v4 = (!"x")+   --   ERROR: loop repeat
      => rejected: [loop repeat]
v5 = (!"x")*   --   ERROR: loop repeat
      => rejected: [loop repeat]
v6 = (!"x")?   --   ERROR: always succeed, never consume
      => rejected: [always succeed, never consume]
w2 = &("x"*)   --   ERROR: always succeed, never consume
      => rejected: [always succeed, never consume]
w3 = &("x"?)   --   ERROR: always succeed, never consume
      => rejected: [always succeed, never consume]
w5 = !("x"*)   --   ERROR: never succeed
      => rejected: [never succeed]
w6 = !("x"?)   --   ERROR: never succeed
      => rejected: [never succeed]
test1 = !(!"a"); test2 = &(&"a"); test3 = !(&"a"); test4 = &(!"a"); test5 = ("a"*)*; test6 = ("a"+)+; test7 = ("a"+)*; test8 = ("a"*)+   --   &"a"; &"a"; !"a"; !"a"; infinite loop -> already detected by WFA; "a"+; "a"+; infinite loop -> already detected by WFA
      => rejected: [loop repeat]
test10 = !test9   --   
      => accepted []
test11 = &"a"; test12 = &test11   --   
      => accepted [useless chaining (&(&e) -> &e)]
test13 = !test11   --   
      => accepted []
test14 = &test9   --   
      => accepted []
test15 = "a"+; test16 = test15+   --   
      => accepted [useless chaining ((e+)+ -> e+)]
test17 = test15*   --   
      => typing error
test18 = &test12; test19 = test16+   --   
      => typing error
test20 = ((("a")+)+)+; test21 = &(&(&(&("a"))))   --   
      => accepted [useless chaining ((e+)+ -> e+), useless chaining (&(&e) -> &e)]
test22 = &"a" / !"b"; test23 = &test22   --   
      => accepted []
test24 = &"a" "b"; test25 = &test24   --   
      => accepted [useless chaining (&(&e) -> &e)]
test26 = &"a" / &"b"; test27 = &test26   --   
      => accepted [useless chaining (&(&e) -> &e)]
test28 = &"a" / "b"; test29 = &test28   --   
      => accepted []
test30 = &"a" &(!"b"); test31 = &test30   --   
      => accepted [useless chaining (&(!e) -> !e), useless chaining (&(&e) -> &e)]
test32 = &(&"a") / &(&"b"); test33 = &test32   --   
      => accepted [useless chaining (&(&e) -> &e), useless chaining (&(&e) -> &e), useless chaining (&(&e) -> &e)]
```
