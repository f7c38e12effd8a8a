
-- loops that run.py does not read
def baseExprs := ["nested.path", "\"normal\"", "\"escaped \\n \\r \\t \\\\ \\\"\"", "true", "false", "123", "-123", "+123", "0x1f", "0o777", "0b1010",
  "3.", "+3.", "-3.", "3.14", "+3.14", "-3.14", "3.14e2", "+3.14e2", "-3.14e2", "3.14e+2", "+3.14e+2", "-3.14e+2", "314e-2", "+314e-2", "-314e-2"]
#eval baseExprs.forM fun a => check "compile.rs/compile_inline_expr_literal" (compiles none ("{{ " ++ a ++ " }}")) (Out.ok "")
#eval baseExprs.forM fun a => check "compile.rs/compile_inline_expr_filter_arg" (compiles none ("{{ lorem | ipsum: " ++ a ++ " }}")) (Out.ok "")
#eval [(Value.bool false, "lorem false"), (.bool true, "lorem true"), (.integer 123, "lorem 123"), (F 123.4, "lorem 123.4"), (S "dolor", "lorem dolor")].forM
  fun (v, x) => check "render.rs/render_inline_expr_primitive" (go none [] (.text "lorem {{ ipsum }}") (.owned (.ok (M [("ipsum", v)]))) none) (Out.ok x)
#eval [("true", "true"), ("false", "false"), ("123", "123"), ("+123", "123"), ("-123", "-123"), ("0x1f", "31"), ("0o777", "511"), ("0b1010", "10"),
  ("3.", "3"), ("+3.", "3"), ("-3.", "-3"), ("3.14", "3.14"), ("+3.14", "3.14"), ("-3.14", "-3.14"), ("3.14e2", "314"), ("+3.14e2", "314"), ("-3.14e2", "-314"),
  ("3.14e+2", "314"), ("+3.14e+2", "314"), ("-3.14e+2", "-314"), ("314e-2", "3.14"), ("+314e-2", "3.14"), ("-314e-2", "-3.14")].forM
  fun (a, x) => check "render.rs/render_inline_expr_literal_roundtrip" (go none [] (.text ("{{ " ++ a ++ " }}")) (.owned (.ok .none)) none) (Out.ok x)
def multi := "\n{%- if a -%} a\n{%- else if b -%} b\n{%- else if c -%} c\n{%- else if d -%} d\n{%- else if e -%} e\n{%- else -%} f\n{%- endif -%}\n"
#eval ["a", "b", "c", "d", "e", "f"].forM fun x => check "render.rs/render_if_statement_multi"
  (go none [] (.text multi) (.owned (.ok (M (["a", "b", "c", "d", "e"].map fun y => (y, .bool (x == y)))))) none) (Out.ok x)
-- tests/to_value.rs
def tv (s : SV) : String := match s.toValue env with | .ok v => debug v | .err e => String.ofList (e.display env false) | .crash => "crash"
def same (n : String) (s : SV) (x : String) : IO Unit := check ("to_value.rs/" ++ n) (.ok (tv s)) (.ok x)
def str (s : String) : SV := .str s.toList
#eval same "bool" (.bool true) "Bool(true)"
#eval [IntTy.i8, .i16, .i32, .i64, .u8, .u16, .u32, .u64].forM fun t => same "integer" (.int t 123) "Integer(123)"
#eval same "out_of_range_integral" (.int .u64 (2^64-1)) "serialize error: out of range integral type conversion attempted"
#eval same "char" (.char 'a') "String(\"a\")"
#eval same "str" (str "testing...") "String(\"testing...\")"
#eval same "bytes" (.tuple [.int .u8 1, .int .u8 2, .int .u8 3, .int .u8 4]) "List([Integer(1), Integer(2), Integer(3), Integer(4)])"
#eval same "none" .none "None"
#eval same "some" (.some (str "testing...")) "String(\"testing...\")"
#eval same "unit" .unit "None"
#eval same "unit_struct" .unitStruct "None"
#eval same "unit_variant" (.unitVariant "Variant".toList) "String(\"Variant\")"
#eval same "newtype_struct" (.newtypeStruct (str "testing...")) "String(\"testing...\")"
#eval same "newtype_variant" (.newtypeVariant "Variant".toList (str "testing...")) "Map({\"Variant\": String(\"testing...\")})"
#eval same "seq" (.seq [str "a", str "b", str "c"]) "List([String(\"a\"), String(\"b\"), String(\"c\")])"
#eval same "tuple_variant" (.tupleVariant "Variant".toList [str "a", str "b", str "c"]) "Map({\"Variant\": List([String(\"a\"), String(\"b\"), String(\"c\")])})"
#eval same "map_key_not_string" (.map [(.some (str "a"), str "b"), (.some (str "c"), str "d")]) "serialize error: map key must be a string"
#eval same "map" (.map [(str "a", str "b"), (str "c", str "d")]) "Map({\"a\": String(\"b\"), \"c\": String(\"d\")})"
#eval same "struct" (.struct [("a".toList, str "b"), ("c".toList, str "d")]) "Map({\"a\": String(\"b\"), \"c\": String(\"d\")})"
#eval same "struct_variant" (.structVariant "Variant".toList [("a".toList, str "b"), ("c".toList, str "d")]) "Map({\"Variant\": Map({\"a\": String(\"b\"), \"c\": String(\"d\")})})"
-- examples of SYNTAX.md and the crate documentation
def docs (src : String) (v : Value) (x : String) : IO Unit := check "docs" (go none [] (.text src) (.owned (.ok v)) none) (Out.ok x)
def john := M [("user", M [("name", S "John"), ("is_welcome", .bool true)])]
#eval docs "Hello,\n    {% if user.is_welcome %} and welcome, {% endif %}\n    {{ user.name }}!" john "Hello,\n     and welcome, \n    John!"
#eval docs "Hello,\n    {%- if user.is_welcome %} and welcome, {% endif -%}\n    {{ user.name }}!" john "Hello, and welcome, John!"
#eval docs "Hello {{ user.name }} {{ user?.surname }}!" john "Hello John !"
#eval docs "Hello {{ users.0.name }}!\nAnd hello {{ users.1.name }}!" (M [("users", .list [M [("name", S "A")], M [("name", S "B")]])]) "Hello A!\nAnd hello B!"
#eval docs "{% if not user.is_enabled %}<p>User is disabled</p>{% else if user.has_permission %}<p>User has insufficient permissions</p>{% else %}<table>...</table>{% endif %}"
  (M [("user", M [("is_enabled", .bool true), ("has_permission", .bool false)])]) "<table>...</table>"
#eval docs "{% for id, user in users %}<p>ID: {{ id }}</p><p>Name: {{ user.name }}</p>{% endfor %}" (M [("users", M [("b", M [("name", S "B")]), ("a", M [("name", S "A")])])])
  "<p>ID: a</p><p>Name: A</p><p>ID: b</p><p>Name: B</p>"
#eval docs "<ul>\n{% for user in users %}\n    <li>{{ loop.index }}. {{ user.name }}</li>\n{% endfor %}\n</ul>" (M [("users", .list [M [("name", S "A")], M [("name", S "B")]])])
  "<ul>\n\n    <li>0. A</li>\n\n    <li>1. B</li>\n\n</ul>"
#eval docs "{{ 42 }} {{ 0o52 }} {{ -0x2a }} {{ 0.123 }} {{ -3.14 }} {{ \"a\\n\\t\\\\\\\"\" }}" .none "42 42 -42 0.123 -3.14 a\n\t\\\""
#eval check "docs" (go none [.tmpl "footer" "{{ year }}"] (.text "<body>{% include \"footer\" %}{% include \"footer\" with path.to %}</body>")
  (.owned (.ok (M [("year", .integer 1), ("path", M [("to", M [("year", .integer 2)])])]))) none) (Out.ok "<body>12</body>")
