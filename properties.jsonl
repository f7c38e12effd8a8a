{"id": "C01", "title": "Delimiter search is leftmost, then longest, then first configured", "statement": "For every set of configured delimiters and every template text, searching from a byte offset returns an occurrence of a delimiter exactly when one exists at or after the offset; the one returned starts at the smallest possible position, among those is the longest, and among equal ones is the delimiter configured first.", "quantifier": "all lists of non-empty byte patterns, all haystacks, all start offsets", "why_tests_cant": "The automaton is built from arbitrary user delimiters (with shared prefixes, suffixes, repetition); failure links interact in unboundedly many ways", "anchors": ["src/compile/search/ahocorasick/mod.rs: AhoCorasick::new, AhoCorasick::find_at", "src/compile/search/mod.rs: Searcher::find_at"]}
{"id": "C02", "title": "Building and running the delimiter search never panics and always stops", "statement": "For every list of non-empty delimiters, constructing an engine with that syntax succeeds (no assertion or index failure, terminating breadth-first construction) and every search on every text terminates without panicking.", "quantifier": "all lists of non-empty patterns, all haystacks and offsets inside them", "why_tests_cant": "Termination of the failure-chain walk and unreachability of asserts hold for every trie, not a sample", "anchors": ["src/compile/search/ahocorasick/mod.rs: build_initial_trie, fill_failure_transitions, copy_matches, next_state"]}
{"id": "C03", "title": "Compiling any template text terminates without panicking", "statement": "For every syntax and every source text, Engine::compile returns either a template or an error and never panics, unless somewhere in the text a closing delimiter that ends in whitespace is followed by more whitespace and then directly by a trimming opening delimiter. (There the unrestricted claim is false: a counterexample is proved. No syntax whose closing delimiters end in other characters is affected.)", "quantifier": "all source strings, all syntaxes", "why_tests_cant": "Slicing panics depend on every combination of multi-byte characters, trims and delimiter positions", "anchors": ["src/compile/lex.rs: Lexer::next", "src/compile/parse.rs: Parser::parse_template", "src/compile/mod.rs: template"]}
{"id": "C04", "title": "Token spans are in bounds, on character boundaries and in order", "statement": "Every token produced while compiling a template carries a byte range that lies inside the source, starts and ends on UTF-8 character boundaries, and starts no earlier than the end of the previous token. (As in C03, texts in which a closing delimiter ending in whitespace, whitespace, and a trimming opening delimiter meet are excepted: a counterexample is proved.)", "quantifier": "all source strings, all syntaxes with well-behaved end delimiters, all tokens", "why_tests_cant": "Depends on every mix of multi-byte characters and delimiters", "anchors": ["src/compile/lex.rs: Lexer::lex, lex_template, lex_block, lex_comment, lex_while, lex_string"]}
{"id": "C05", "title": "Lexing is lossless", "statement": "The byte ranges of the tokens of a successfully lexed template, together with the whitespace removed by trim tags, concatenate to exactly the source text: no text is skipped, duplicated or invented.", "quantifier": "all source strings that lex successfully, for syntaxes whose end delimiters do not end in whitespace", "why_tests_cant": "Quantifies over all sources; a lost byte at a rare boundary is invisible to examples", "anchors": ["src/compile/lex.rs: Lexer::next, Lexer::lex_template"]}
{"id": "C06", "title": "Whitespace control trims exactly the adjacent whitespace", "statement": "The raw text between two tags loses its maximal leading run of whitespace exactly when the preceding tag ends with a trimming delimiter, loses its maximal trailing run exactly when the following tag begins with a trimming delimiter, and is otherwise emitted unchanged.", "quantifier": "all raw segments, all combinations of trim markers, for syntaxes whose end delimiters do not end in whitespace", "why_tests_cant": "Any Unicode whitespace mix of any length, on both sides, overlapping", "anchors": ["src/compile/lex.rs: Lexer::lex_template, Lexer::lex"]}
{"id": "C07", "title": "A template without delimiters renders to itself", "statement": "If no configured delimiter occurs in the source, the template compiles and renders to exactly the source text, whatever the engine state and globals are.", "quantifier": "all sources containing no delimiter, all engines, all globals", "why_tests_cant": "Ranges over all texts", "anchors": ["src/compile/lex.rs: lex_template", "src/compile/parse.rs: parse_template", "src/render/core.rs: RendererImpl::render"]}
{"id": "C08", "title": "Comments produce no output and have no effect", "statement": "A comment tag adds no token besides its delimiters and content and no instruction to the compiled template: a template in which a comment occurs has the same statements as the sequence of what surrounds the comment.", "quantifier": "all comment bodies, all positions between tags", "why_tests_cant": "Ranges over all comment bodies", "anchors": ["src/compile/lex.rs: lex_comment", "src/compile/parse.rs: Parser::parse_template"]}
{"id": "C09", "title": "Block structure: accepted templates are exactly the well-nested ones", "statement": "A token sequence compiles exactly when it matches the documented grammar (if / else if / else / endif, for / endfor, with / endwith, include, expressions with filters); the tree the compiler uses is the one the grammar gives and it is unique.", "quantifier": "all token sequences", "why_tests_cant": "Arbitrary nesting depth and statement mixes", "anchors": ["src/compile/parse.rs: Parser::parse_template, parse_block, parse_expr, parse_call, parse_args, parse_base_expr, parse_var"]}
{"id": "C10", "title": "Integer literals denote their mathematical value", "statement": "A literal in base 2, 8, 10 or 16 with optional sign and underscores evaluates to exactly the integer it denotes whenever that fits in a signed 64-bit integer, and is never silently wrapped or truncated to another integer.", "quantifier": "all digit strings, all radices, both signs", "why_tests_cant": "Infinite set of literals; overflow boundary and underscore placement", "anchors": ["src/compile/parse.rs: parse_literal_number, parse_integer, parse_integer_with_radix"]}
{"id": "C11", "title": "String literals denote their unescaped text", "statement": "A string literal evaluates to its content with every escape sequence (\\n \\r \\t \\\\ \\\") replaced by the character it stands for; an unknown escape is an error. Every text can be written as a literal by escaping it, except those that end in a backslash: there the lexer takes the closing quote for an escaped one and the template is rejected. (With one more quote after that one, which is not part of the text, such a text can be written too.)", "quantifier": "all string contents", "why_tests_cant": "All contents, all escape placements", "anchors": ["src/compile/lex.rs: lex_string", "src/compile/parse.rs: parse_string"]}
{"id": "C12", "title": "List-index literals denote their value or are rejected", "statement": "A path index such as `a.12` denotes the decimal number written, and a number that does not fit in usize is rejected with an error rather than wrapped.", "quantifier": "all digit strings", "why_tests_cant": "Infinite set of literals", "anchors": ["src/compile/parse.rs: Parser::parse_access, parse_index"]}
{"id": "C13", "title": "Filter pipelines apply left to right, exactly once each", "statement": "The value of `e | f: a | g: b` is obtained by evaluating e, applying f with its arguments to the result, then g; each filter runs exactly once, in source order, and its arguments are evaluated in source order before it runs.", "quantifier": "all pipelines of any length, all filters, all values", "why_tests_cant": "Unbounded pipelines and arbitrary user filters", "anchors": ["src/compile/mod.rs: Compiler::compile_expr", "src/render/core.rs: RendererImpl::render_one (Apply)"]}
{"id": "C14", "title": "Compiled templates never crash the renderer", "statement": "Rendering a template that compiled successfully returns a value or an error: no stack underflow, bad jump, missing expression, unpatched jump or final-position assertion. The only exception is a defect of the code: the name of a `with` variable is kept as a byte range of its own template, so a template included without `with` from inside the block may panic if that range is not a slice of the included text (a counterexample is proved, and that there is no other way to panic).", "quantifier": "all compiled templates, all engines, globals and writers", "why_tests_cant": "All programs the compiler can emit, all run-time values", "anchors": ["src/compile/mod.rs: Compiler", "src/render/core.rs: RendererImpl::render_one", "src/render/stack.rs: Stack"]}
{"id": "C15", "title": "Rendering always terminates", "statement": "Rendering any template in any engine terminates, even when templates include themselves or each other, provided user functions terminate.", "quantifier": "all template registries including cyclic ones, all globals", "why_tests_cant": "Cyclic include graphs and unbounded loops", "anchors": ["src/render/core.rs: RendererImpl::render", "src/lib.rs: Engine::set_max_include_depth"]}
{"id": "C16", "title": "Compilation is correct: rendering equals the structural semantics of the template", "statement": "Rendering the compiled instructions gives the same output, error and effects as evaluating the template tree directly: statements in order, if picks one branch, for runs its body per item, with binds a name for its body, include renders the named template.", "quantifier": "all template trees of any nesting, all engines, globals and writers", "why_tests_cant": "Jump-target correctness for arbitrarily nested blocks", "anchors": ["src/compile/mod.rs: Compiler::compile_stmt", "src/render/core.rs: RendererImpl::render_one"]}
{"id": "C17", "title": "Conditionals follow documented truthiness and render exactly one branch", "statement": "`if e` renders the then-branch exactly when e is truthy and the else-branch (or nothing) otherwise; `if not e` the reverse; falsy values are none, false, zero, 0.0, empty string, empty list and empty map, and all others are truthy.", "quantifier": "all values, all branches, chains of else-if of any length", "why_tests_cant": "All values and nestings", "anchors": ["src/render/value.rs: Value::as_bool", "src/compile/mod.rs: Compiler::compile_stmt (IfElse)"]}
{"id": "C18", "title": "Loops visit every item exactly once, in order, with correct loop.index/first/last", "statement": "A for loop over a list (or map) renders its body once per item in order, with the item bound to the loop variable, loop.index counting from 0, loop.first true only on the first and loop.last only on the last iteration; an empty collection renders nothing; a non-iterable value is an error.", "quantifier": "all lists and maps of any length, all bodies", "why_tests_cant": "Unbounded lengths", "anchors": ["src/render/iter.rs: LoopState", "src/render/core.rs: LoopStart, LoopNext"]}
{"id": "C19", "title": "Map iteration is in ascending key order with each key once", "statement": "A two-variable loop over a map visits each key exactly once in ascending byte order of the keys, with the value stored under that key.", "quantifier": "all maps", "why_tests_cant": "All maps", "anchors": ["src/render/iter.rs: LoopState::Map", "src/types/value.rs: Value::Map"]}
{"id": "C20", "title": "Bindings are lexically scoped and restored", "statement": "`with e as n` and `for n in e` make n visible exactly in their body, shadowing any outer n; after the block every name resolves as it did before it.", "quantifier": "all templates, all names, all nestings", "why_tests_cant": "Arbitrary nesting and shadowing", "anchors": ["src/render/stack.rs: Stack::lookup_path, push, pop", "src/render/core.rs: WithStart, WithEnd, LoopStart, LoopNext"]}
{"id": "C21", "title": "A plain include sees its caller's scope", "statement": "`include \"t\"` renders template t as if its body stood at that place: it sees the caller's globals and loop variables, and changes none of the caller's bindings. (For variables bound by `with` this is false or panics: counterexamples are proved.)", "quantifier": "all templates, registries, scopes", "why_tests_cant": "All registries and scopes", "anchors": ["src/render/core.rs: RendererImpl::render (Include)", "src/render/stack.rs"]}
{"id": "C22", "title": "include ... with isolates the included template", "statement": "`include \"t\" with e` renders t with the value of e as its only scope: no binding of the caller can influence its output or its errors.", "quantifier": "all templates, caller scopes", "why_tests_cant": "Non-interference over all pairs of caller scopes", "anchors": ["src/render/core.rs: IncludeWith", "src/render/stack.rs: State::Boundary"]}
{"id": "C23", "title": "The include depth limit is exact", "statement": "Rendering fails with the depth error exactly when the stack of active templates (the one rendered and those being included) would exceed the configured limit (a limit of 0 acts as 1); with limit d any nesting of at most d active templates is unaffected, and the limit set on the renderer overrides the engine's.", "quantifier": "all limits, all include graphs", "why_tests_cant": "All limits and graphs", "anchors": ["src/render/core.rs: RendererImpl::render", "src/lib.rs: Engine::set_max_include_depth", "src/render/mod.rs: Renderer::with_max_include_depth"]}
{"id": "C24", "title": "Direct and optional member access", "statement": "Looking up a path walks it segment by segment: `.k` on a map yields the value stored under k and `.i` on a list its i-th element; if the member is absent `.` is an error and `?.` yields none without evaluating the rest of the path; any other receiver is an error with either kind of access. (On a loop variable `?.` on an absent member falls through to outer scopes: a counterexample is proved.)", "quantifier": "all values, all paths of any length", "why_tests_cant": "All values and paths", "anchors": ["src/render/value.rs: lookup, lookup_path", "src/render/stack.rs: Stack::lookup_path", "src/render/iter.rs: LoopState::lookup_var"]}
{"id": "C25", "title": "to_writer and to_string agree", "statement": "Rendering to a writer that accepts everything writes exactly the text that rendering to a string returns, and succeeds or fails with the same error.", "quantifier": "all templates, engines, globals, writers that never fail", "why_tests_cant": "All renders", "anchors": ["src/render/mod.rs: Renderer::to_string, Renderer::to_writer", "src/fmt.rs"]}
{"id": "C26", "title": "Writer failures surface as I/O errors and only a prefix is written", "statement": "If the underlying writer fails, to_writer returns an I/O error carrying that failure, no write is attempted afterwards, and what was written is a prefix of the full output, provided formatters stop at a failed write as the default one does. (With a formatter that ignores the failure the claim is false: a counterexample is proved.)", "quantifier": "all templates, all writers failing at any point", "why_tests_cant": "All failure points", "anchors": ["src/render/mod.rs: Renderer::to_writer", "src/fmt.rs: Writer::write_str"]}
{"id": "C27", "title": "Custom template and value providers are consulted as documented", "statement": "A custom template function is called once per include executed, with the name in the include, and its error or template is used as is; a custom value function receives the whole path of each variable not bound in the template, and `None`/error become the corresponding error.", "quantifier": "all templates, all providers", "why_tests_cant": "All call sequences", "anchors": ["src/render/core.rs: RendererInner", "src/render/stack.rs: State::ValueFn", "src/render/mod.rs"]}
{"id": "C28", "title": "The template registry behaves like a map and failed adds change nothing", "statement": "After any sequence of add_template / remove_template calls, looking up a name gives the template last successfully added under it and not removed since; an add that fails to compile leaves every lookup unchanged; remove returns whether it existed.", "quantifier": "all operation histories", "why_tests_cant": "All histories", "anchors": ["src/lib.rs: Engine::add_template, remove_template, template"]}
{"id": "C29", "title": "Filters and formatters share one function namespace", "statement": "After any sequence of add_filter, add_formatter and remove_function calls a name denotes the most recently added function, whatever its kind, and each call reports the kind of function it replaced or removed.", "quantifier": "all operation histories", "why_tests_cant": "All histories", "anchors": ["src/lib.rs: Engine::add_filter, add_formatter, remove_function"]}
{"id": "C30", "title": "Filter and formatter dispatch", "statement": "An emitted expression whose last call has no arguments uses the named formatter directly, or the named filter followed by the default formatter; a formatter in any other position and an unknown name are errors at the name's location.", "quantifier": "all pipelines, all function registries", "why_tests_cant": "All registries and pipelines", "anchors": ["src/compile/mod.rs: Compiler::pop_emit_expr", "src/render/core.rs: EmitWith, Apply"]}
{"id": "C31", "title": "Filter calls check arity, types and integer ranges", "statement": "A filter runs only if it is called with exactly its number of arguments and value and arguments convert to its parameter types, integers being range checked; otherwise the filter is not called and an error is returned. The error says how many arguments were expected; or, for the value or the first argument that does not fit, what kind was expected and what was found, or that the number is out of range, or that it cannot be borrowed; and it is located at the filter's name, or at that argument.", "quantifier": "all filters of up to 4 arguments, all values", "why_tests_cant": "All values and integer types", "anchors": ["src/filters/mod.rs", "src/filters/args.rs"]}
{"id": "C32", "title": "Default formatting of values", "statement": "Emitting none prints nothing, booleans, numbers and strings print their display form, and lists and maps are an error.", "quantifier": "all values", "why_tests_cant": "All values", "anchors": ["src/fmt.rs: default"]}
{"id": "C33", "title": "to_value preserves data", "statement": "Serialising a Value gives the same Value back; integers that do not fit in i64 are rejected, not wrapped; structs and maps become maps with their fields; enum variants become a name or a one-entry map.", "quantifier": "all serialisable trees", "why_tests_cant": "All trees", "anchors": ["src/value/ser.rs: to_value, ValueSerializer"]}
{"id": "C34", "title": "Map key conversion is injective per key type and rejects non-string keys", "statement": "Map keys that are strings, chars, integers or unit variants become their text; any other key type is an error and no key is silently dropped or merged for distinct keys of one type.", "quantifier": "all keys", "why_tests_cant": "All keys", "anchors": ["src/value/ser.rs: MapKeySerializer"]}
{"id": "C35", "title": "Errors name the template they occurred in", "statement": "A render error raised while executing an included template carries that template's name; one raised in the top-level template carries the top-level name if any; add_template errors carry the name being added. The depth-limit error, raised between two templates, names none.", "quantifier": "all include chains, all errors", "why_tests_cant": "All include chains", "anchors": ["src/render/core.rs: RendererImpl::render", "src/error.rs: Error::with_template_name", "src/lib.rs: add_template"]}
{"id": "C36", "title": "Error locations point into the source", "statement": "For templates of printable ASCII lines, the line and column in an error report identify the first byte of the offending range (unless the range is empty and stands after a final newline), and building the report never panics. Every error of compilation, and every error of a render except plain write failures and the depth error, has such a location. (For other text the reported line can be wrong: a counterexample is proved.) For any text, the number of bytes before the range is taken for a number of displayed columns, each newline counting as one, and the location is where that many columns lead; past the last column it is the end of the last line, with the number of the line after it.", "quantifier": "all sources and spans inside them, all width functions; for the exact place, ASCII sources", "why_tests_cant": "All sources and spans", "anchors": ["src/error.rs: Pretty::build, to_ln_col"]}
{"id": "C37", "title": "Unset syntax is inert", "statement": "Delimiters of a tag kind that was not configured have no meaning: no token of that kind is ever produced and text containing them is plain text.", "quantifier": "all syntaxes, all sources", "why_tests_cant": "All syntaxes", "anchors": ["src/types/syntax.rs: SyntaxBuilder::build", "src/compile/lex.rs"]}
{"id": "C38", "title": "Conversions into Value keep the data", "statement": "Converting arrays, vectors and maps into Value keeps every element in order, and for maps built from pairs the last value for a key wins and keys come out sorted. A conversion gives the same value as serializing the same data: None and () become Value::None, numbers and strings themselves, and so on for what is inside collections and options.", "quantifier": "all collections, options and scalars of the types that convert", "why_tests_cant": "There are infinitely many collections, and two independent pieces of code (conversion and serialization) have to agree on all of them.", "anchors": ["src/value/from.rs"]}
{"id": "C39", "title": "Trim delimiters take precedence", "statement": "At a position of the source where a tag starts or ends, if a trimming delimiter such as `{{-` or `-}}` stands there it is recognised as the trimming form, never as the plain delimiter followed or preceded by a minus.", "quantifier": "all sources, all positions where a delimiter token starts", "why_tests_cant": "All sources", "anchors": ["src/compile/lex.rs", "src/types/syntax.rs"]}
{"id": "C40", "title": "Rendering is a function of its inputs and leaves the engine unchanged", "statement": "Rendering the same template twice with the same engine, globals and deterministic user functions gives the same result; a render, successful or failed, does not change the engine, so later renders are unaffected.", "quantifier": "all templates, engines, globals, histories", "why_tests_cant": "All histories", "anchors": ["src/render/core.rs", "src/lib.rs: Engine"]}
{"id": "C41", "title": "Displayed errors quote and mark the offending text", "statement": "`{e}` is the kind of the error followed by the reason, if any. For templates of printable ASCII lines, `{e:#}` of an error that has a reason and a location shows the name of the template (or <anonymous>), the line and column counted from one, the whole line in which the offending text begins and, on the next line, carets that start exactly under it and, if it lies in one line, stand under exactly its characters. Errors without a reason or location have the same long and short form. Error::source is the underlying I/O error for writer failures and nothing otherwise.", "quantifier": "all templates, all compile and render errors, all offending ranges, all template names and reasons", "why_tests_cant": "Alignment depends on the number of digits of the line number, the column, and the width of the range, over every source and every place in it; tests check a few reports.", "anchors": ["src/error.rs: impl Display for Error", "src/error.rs: Pretty::fmt_with_reason", "src/error.rs: Pretty::build", "src/error.rs: Error::source"]}
{"id": "C42", "title": "value! builds exactly what is written", "statement": "The value! macro compiles exactly for entries `key: value` separated by commas (last comma optional), where a value is None, a bracketed list, braced entries, or a Rust expression; no input has two readings. The resulting value is the map of the written entries, of which the last one with a given key counts; lists keep their elements in order, and every expression becomes its serialised value. Evaluating it panics exactly if one of the expressions has no serialised value.", "quantifier": "all token sequences given to value!, nested to any depth, with all serialisable expressions", "why_tests_cant": "The macro's rules consume tokens one by one over inputs of any length and depth; tests try some shapes.", "anchors": ["src/macros.rs: value!", "src/macros.rs: _value!", "src/value/ser/mod.rs: to_value"]}
{"id": "C43", "title": "a render depends only on what the templates mention", "statement": "Rendering a template gives the same result - the same text, error or panic, on a string and on every writer - with any two engines and globals that agree on what is mentioned: the globals whose names begin a variable in the template or in a template it may reach by includes, the filters and formatters called there, and the templates included there. Whatever else is registered or passed (more globals, filters, formatters, templates) has no effect. What is mentioned stands in the templates' text.", "quantifier": "all templates, all pairs of engines and globals (maps or providers) that agree on what the reachable templates mention, all include depths and writers", "why_tests_cant": "It compares a render with every other render in a larger or smaller environment; tests try one environment at a time.", "anchors": ["src/render/core.rs: RendererImpl::render", "src/render/stack.rs: Stack::lookup_var", "src/render/core.rs: Renderer::get_template", "src/lib.rs: Engine::add_filter, Engine::add_template"]}
{"id": "C44", "title": "a render depends only on what the templates say, not on their layout", "statement": "Two templates say the same if they are made of the same characters of text, delimiters, punctuation, names, keywords, numbers and strings, apart from comments and from blanks inside tags; they may be written in different syntaxes (delimiters), use trimming delimiters or spell out the trimmed text, and be broken into lines differently. With the same globals, filters and formatters, and included templates that say the same under each name, an engine compiles both or neither, and rendering either one gives the same text, or an error of the same kind, template name and reason (only the place shown may differ), or both panic; on every writer that takes what it is given the same bytes are written.", "quantifier": "all pairs of templates that say the same, in all pairs of syntaxes, with all included templates, globals, filters, depths; except templates with a plain include inside a with block (known defect, see C21)", "why_tests_cant": "It compares each template with all its other layouts in all syntaxes; tests fix the layout.", "anchors": ["src/compile/lex.rs: Lexer::next", "src/compile/parse.rs: Parser", "src/syntax.rs: SyntaxBuilder", "src/render/core.rs: RendererImpl::render"]}
{"id": "C45", "title": "templates compose one after the other", "statement": "If a template says what one template says followed by what another says (in any layout and syntax), then an engine compiles it, and rendering it gives the text of the first followed by the text of the second; if the first fails, it fails with the same kind, name and reason, and otherwise it fails as the second one does. So nothing leaks from one part of a template into the next: no variable, loop state, output or earlier include.", "quantifier": "all pairs of templates, all included templates, globals, filters, formatters and depths, for template stores whose answers do not depend on earlier requests", "why_tests_cant": "It relates every template to all its splits; tests try single templates.", "anchors": ["src/render/core.rs: RendererImpl::render", "src/render/stack.rs: Stack", "src/compile/mod.rs: Compiler", "src/compile/parse.rs: Parser"]}
{"id": "C46", "title": "an include is the included template inlined", "statement": "Replacing any of the tags {% include \"b\" %} of a template, wherever they are nested, by what template b says gives a template that an engine compiles, and rendering it gives the same text, or an error of the same kind and reason (only the template name and place may differ), unless the render with the includes reaches the maximum include depth.", "quantifier": "all templates, all choices of include tags, all included templates, globals, filters and depths; except templates with a plain include inside a with block (known defect, see C21)", "why_tests_cant": "It relates every template to all its inlinings; tests try single includes.", "anchors": ["src/render/core.rs: RendererImpl::render", "src/render/stack.rs: Stack", "src/compile/parse.rs: Parser::parse_stmt"]}
{"id": "C47", "title": "nothing reaches the output but template text and what formatters write", "statement": "If a property of texts that holds of the empty text and of any two texts together holds of the text outside tags of the template and of the templates it needs, of all that the default formatter writes and of all that the other formatters named in {{ }} tags write, then it holds of the rendered text. So auto-escaping through the default formatter is airtight: no global, filter, error or control flow carries an unescaped value to the output. On a writer, an invariant of the writer that is kept when such texts are written is kept by the whole render, also when the render fails half way.", "quantifier": "all templates, all globals and filters (also hostile ones), all included templates, depths, formatters and writers, all properties closed under concatenation", "why_tests_cant": "It must hold for every value, filter and path of control; tests try some values.", "anchors": ["src/render/core.rs: RendererImpl::render_value", "src/render/core.rs: RendererImpl::render", "src/fmt.rs: Formatter", "examples/escape_html.rs"]}
{"id": "C48", "title": "globals can be given as data, as a value, or by a function", "statement": "Rendering with data that serializes to a value, with that value by reference, and with a function that answers every path from that value gives the same text, fails together and panics together; the errors have the same kind, name the same template and differ at most in what a failed variable look-up says. To a writer, the same is written. With a function this needs that no filter takes an argument (other than its subject) by reference: then whatever the function renders the value renders, but not conversely, as variables from a function are owned and such filters reject them.", "quantifier": "all templates, included templates, engines, values and all functions that answer from the value", "why_tests_cant": "Three code paths for globals must agree on every template and every value; owned and borrowed values flow differently through loops, filters and includes.", "anchors": ["src/render/mod.rs: Renderer::with_serde, with_value, with_value_fn", "src/render/stack.rs: Stack::lookup_var", "src/render/value.rs: ValueCow", "src/filters/args.rs: FilterArg"]}
{"id": "C49", "title": "templates can be refactored by laws", "statement": "Rewriting templates, anywhere and any number of times, by these laws in either direction changes nothing in the rendered text or in the kind and reason of an error (its place may change): swapping the branches of if and if not; leaving out an empty else; deciding an if on a literal; joining neighbouring ifs on the same condition; moving the common end of two branches out; leaving out a question already answered by an enclosing if; giving the receiver of a filter, the sequence of a loop, the condition of an if or the globals of an include a name with `with` first, if the name is not used otherwise; leaving out an unused name for a literal.", "quantifier": "all templates and included templates, all rewrites by the laws, globals (data or function), filters, formatters and depths; except templates with a plain include inside a with block (known defect, see C21)", "why_tests_cant": "It relates every template to all its rewritings, in every context of loops, includes and scopes.", "anchors": ["src/compile/mod.rs: Compiler::compile_stmt", "src/render/core.rs: RendererImpl::render", "src/render/stack.rs: Stack::lookup_var"]}
{"id": "C50", "title": "bound variables can be renamed", "statement": "Giving other names to variables bound by for and with, in a template and in those it includes, such that every use still refers to the same binding, changes nothing in the rendered text or in the kind and reason of an error. There is one exception: an optional access to the item of a loop, as in u?.m, which is looked up again outside the loop if it finds nothing; for it the claim is false unless the name means the same outside.", "quantifier": "all templates and included templates, all renamings, globals (data or function), filters, formatters and depths; templates included with all variables must see the same names", "why_tests_cant": "It relates every template to all its renamings, with every way of shadowing; tests use one choice of names.", "anchors": ["src/render/stack.rs: Stack::lookup_var, State", "src/compile/mod.rs: Compiler::compile_stmt", "src/render/core.rs: RendererImpl::render"]}
{"id": "C51", "title": "a syntax error is true and points at the first token that cannot be there", "statement": "When a text does not compile, then: (a) if the error is about a token in a tag, that token is the first one that cannot follow the tag's tokens before it: what precedes it is the beginning of some valid template (or the keyword of its tag is out of place), no valid template contains the tag up to and including it; the error points at it and the thing the message expects is something that could stand there; for a malformed literal the message says what is wrong with it (a digit that is none in its base after digits that are in range, leading digits that are out of range, a float that does not parse, an unknown escape) and points exactly at the bad digit or escape, or at the whole literal - except that the bad digit of a number with a sign is counted from the sign, so the error points too early (known defect); (b) if the source ends inside a tag or comment, the error points at the end and what it expects could follow; (c) if a block tag is out of place (else, endif, endfor, ... without its block), the error names it and points at the whole tag, and no valid template goes on like that; (d) if a block is not closed, the error names and points at the tag that opens after the longest beginning of the text that is itself a template; (e) otherwise the text cannot be split into tokens, and everything before is the beginning of a valid template or tag.", "quantifier": "all texts and all syntaxes (that satisfy the condition in C03)", "why_tests_cant": "It says for every wrong text that no earlier place could be blamed and that no valid template whatsoever continues past the place; tests compare single messages.", "anchors": ["src/compile/parse.rs: Parser::parse_template, parse_block, parse_expr, expect", "src/compile/lex.rs: Lexer::next", "src/error.rs: Error::syntax"]}
{"id": "C52", "title": "where and why a text cannot be split into tokens", "statement": "Splitting a text into tokens fails exactly when, after some tokens, one of these stands at the next place, and the error has the message and byte range of that case: the next delimiter of the text outside of tags is a closing one (unexpected end ..., at that delimiter); a delimiter opens a tag inside a tag or comment (unclosed begin ..., at the delimiter that opened the outer one); a tag or comment is closed by the wrong kind of delimiter (unexpected end ..., at it); a character no token starts with, or a question mark not followed by a dot (unexpected character, at it); a string literal that is not closed before the end of its line (undelimited string, from its quote to the end of the line). Such a text never compiles, and if everything before the place is the beginning of a template, or a tag or comment begun after one, then this error is the one that compile reports.", "quantifier": "all texts and all syntaxes (that satisfy the condition in C03)", "why_tests_cant": "It is an equivalence over all texts and delimiters: no text fails for any other reason or at any other place, and none of these is ever accepted.", "anchors": ["src/compile/lex.rs: Lexer::lex, lex_template, lex_block, lex_comment, lex_string, lex_question_dot, err_unclosed, err_unexpected_token, err_unexpected_character, err_undelimited_string", "src/compile/search/mod.rs: Searcher::find_at, starts_with"]}
{"id": "C53", "title": "every template can be written down, in any syntax", "statement": "Every template tree - any text, names, paths, filters with arguments, boolean, integer, floating point and string literals, if, for, with and include, nested in any way - is the tree of some template text, obtained by writing its words one after the other with a space after each inside tags, in every syntax whose delimiters have no whitespace and are told apart by how they start (such as the default one): the text compiles, and to this tree. So a template in one syntax can be rewritten in another: what it says, written in the other syntax, compiles and says the same. The text must not contain a delimiter by accident; in syntaxes with comments and delimiters of two or more characters this condition is not needed: a trimming comment after each character that a delimiter starts with keeps them apart. (A loop over a number literal cannot be written: after the loop variable digits are read as an index. Floating point numbers are those that some literal denotes.)", "quantifier": "all template trees, all texts, all such syntaxes", "why_tests_cant": "It ranges over all trees and all delimiters; the lexer's decisions depend on all the surrounding characters.", "anchors": ["src/compile/lex.rs: Lexer, lex_template, lex_block, lex_comment", "src/compile/parse.rs: Parser", "src/types/syntax.rs: SyntaxBuilder::build", "src/lib.rs: Engine::with_syntax, Engine::compile"]}
{"id": "C54", "title": "Rust functions as filters", "statement": "A function registered as a filter is called as in Rust: `{{ value | name: a, b }}` calls it with the value as its first parameter and the arguments, in order, as the others. The call happens exactly when each parameter can hold what the template passes for it - the kind of value that its type asks for, for integer types a number in their range, and for a borrowed parameter in an argument position something that can be borrowed - and each then holds exactly that value (f32 rounds). The value of the expression is what the function returns, converted into a value; if it returns a Result, Ok is treated like that and Err(message) is an error of kind filter with that message, located at the filter's name. Otherwise the function is not called and the outcome does not depend on what it does.", "quantifier": "all parameter types, any number of parameters, all functions, values, arguments and bindings", "why_tests_cant": "The implementation is 150 generated impls plus generic ones and twelve conversions; the claim ranges over all signatures, all functions and all values at the limits of each type.", "anchors": ["src/filters/mod.rs: new, Filter, FilterArgs::from_state, get_arg, FilterReturn::to_value, FilterError::to_error", "src/filters/impls.rs", "src/filters/args.rs: FilterArg", "src/lib.rs: Engine::add_filter"]}
{"id": "C55", "title": "all ways of rendering a template agree", "statement": "Rendering serialisable data (render) gives the same outcome, in a string or a writer, as rendering the value it serialises to (render_from); data that cannot be serialised gives the serialisation error and nothing is written. Compiling a text and rendering the template gives the same as registering the text under a name and rendering the template of that name: the same text, the same panic, and the same error except that an error without a template name gets this name. A renderer with a template function that looks names up in the engine behaves like one without; a maximum depth set on a renderer acts like one set on the engine. The source of a template is the text it was compiled from.", "quantifier": "all templates, engines, data, values, names, writers and settings", "why_tests_cant": "It relates pairs of API calls for all templates and all data; a test compares single outcomes.", "anchors": ["src/lib.rs: Template::render, render_from, TemplateRef::render, render_from, source, Engine::get_template", "src/render/mod.rs: Renderer::with_serde, with_value, with_template_fn, with_max_include_depth", "src/render/core.rs: RendererImpl::render"]}
{"id": "C56", "title": "the unicode feature matters only for names and columns", "statement": "With and without the feature `unicode` (and with any version of its tables) a template behaves the same, except for which characters names may contain and how columns are counted in error messages. A text in which both builds take the same characters for characters of names - in particular any ASCII text - compiles to the same template, or is refused with the same error kind, reason and place. Turning the feature on never breaks a template, whatever characters its text, strings and comments hold, if the delimiters start with ASCII characters. Every template renders to the same text, written in the same pieces, or fails with the same error at the same place. Where text is equally wide in both builds (printable ASCII), the line, column and quoted line in errors are the same.", "quantifier": "all pairs of builds (Unicode tables), sources, syntaxes, engines, templates, data, writers", "why_tests_cant": "A test runs in one build; the claim compares all inputs across builds.", "anchors": ["src/compile/lex.rs: is_ident_start, is_ident", "src/error.rs: display_width, to_ln_col", "Cargo.toml: feature unicode"]}
{"id": "C57", "title": "renders at the same time do not disturb each other", "statement": "Several threads render with the same engine (or several) at the same time, taking turns in any order. Each call of to_string or to_writer returns what it returns alone, and leaves its own writer, which may also fail, as it would alone; and it has returned once it has had a certain number of turns, which depends neither on the other threads nor on the schedule. If the threads write to one writer that accepts what it is given, what is written is what the threads wrote, merged, and what each thread wrote is, in order, what it writes alone. If they write to one writer that may fail, an error of the writer is returned only by a thread that got it for something it wrote itself.", "quantifier": "all engines, lists of renderers, writers and all schedules of turns (between instructions, and between the writes of a formatter)", "why_tests_cant": "All schedules of all renders; a test runs a few interleavings.", "anchors": ["src/lib.rs: Engine (functions are Send + Sync)", "src/render/mod.rs: Renderer, to_string, to_writer", "src/render/core.rs: RendererImpl::render", "src/fmt.rs: Writer"]}
{"id": "C58", "title": "functions with effects", "statement": "Filters, formatters and value functions may have effects: they may count calls, cache, read clocks or random numbers, and answer the same call differently each time. Whatever they do, a render ends, and returns one thing: what the template says when every use of a function gets the answer given at that moment, the uses happening one after the other in the order of the template. Functions that answer the same each time give the ordinary render. Effects cause no panic: a render of templates that have no plain include inside a with block does not panic. If every text that formatters ever write (and every text of the templates) satisfies a property closed under joining, so does the output.", "quantifier": "all engines, templates, data, sinks, and all sequences of behaviours of the user's functions", "why_tests_cant": "All behaviours over time of arbitrary stateful closures.", "anchors": ["src/filters/mod.rs: Filter", "src/fmt.rs: Formatter", "src/lib.rs: ValueFn", "src/render/core.rs: RendererImpl::render_one, lookup"]}
{"id": "C59", "title": "templates and renders stay small", "statement": "What the engine keeps of a template is its text and at most one instruction for each byte of the text, and its blocks nest at most as deep as the text is long. At every moment of a render - however often loops run, whichever templates include each other, in whatever way it ends - the number of open scopes is at most one for the values given, plus for each active template the depth of its for and with blocks, plus two for each include with a value; so with templates of at most N bytes and the depth limit d it is at most 1 + max(1, d) * (N + 2), whatever the data.", "quantifier": "all engines, syntaxes, templates and their includes, values, functions, sinks and all moments of all renders", "why_tests_cant": "Bounds on memory are about every moment of every render and every template text; a test observes single runs, and a scope left behind on one path (an empty loop, an else branch, an include that ends) shows only if that path is repeated.", "anchors": ["src/compile/mod.rs: Compiler::compile_stmt, compile_scope", "src/render/core.rs: RendererImpl::render_to, render_one", "src/render/stack.rs: Stack::push, pop"]}
{"id": "C60", "title": "the work of a render is bounded", "statement": "A render is over - with an output or with an error - after a number of steps that is bounded by the sizes of what it is given: if no template (the one rendered or one it may include) is longer than M bytes, blocks nest at most N deep, and no loop runs over more than n items, it takes at most (M * (n + 1)^N + 2)^max(1, d) steps, where d is the maximum include depth. No loop runs over more than n >= 3 items if neither the values given nor the results of the filters contain a longer list or map. So an engine cannot be made to loop by a template, only by its functions. Nor can the output grow without bound: if moreover the formatters write at most L bytes for each value that can occur (the default formatter does, if no string or number in the data and the results of filters is longer), then at most max(M, L) times that many bytes are written, to a string or to any writer, also when the render fails.", "quantifier": "all engines, syntaxes, depth limits, templates (including ones that include themselves), values, value functions, filters and formatters that return, sinks", "why_tests_cant": "A bound on the work is about every template and every value; the bad cases (recursive includes inside nested loops) grow so fast that running them is no way to check them.", "anchors": ["src/render/core.rs: RendererImpl::render_to, render_one", "src/render/iter.rs: LoopState::iterate", "src/compile/mod.rs: Compiler::compile_stmt"]}
{"id": "C61", "title": "strings in data are opaque", "statement": "Rendering never looks into the strings of the data: they are not parsed for tags, compared, trimmed or used as names of templates, filters or variables; all it asks of a string is whether it is empty. Replace strings anywhere in the data by other strings (empty ones only by empty ones), with filters that turn corresponding values into corresponding ones and formatters that write corresponding values as corresponding texts: if a template renders with the one data then also with the other, and the two outputs consist of the same number of pieces, each the same in both or corresponding. With the default formatter the pieces that differ are the replaced strings themselves, written as they are. If the replacement can be undone, the template renders with the one data if and only if it does with the other.", "quantifier": "all engines, templates and their includes, data (given as a value or by a value function), relations between strings, filters and formatters that respect them", "why_tests_cant": "It compares the renders of all pairs of data that differ in their strings; injection shows only for the strings nobody thought of testing.", "anchors": ["src/render/core.rs: RendererImpl::render_one", "src/render/value.rs: ValueCow::as_bool, lookup", "src/fmt.rs: default"]}
{"id": "C62", "title": "entries added to the data do not matter", "statement": "If a template renders with some data, it renders to the same text when maps in the data, at any depth, are given additional entries - provided neither it nor the templates it may include ask for the keys of those entries with `?.` or loop over the entries of a map, that maps which are empty stay empty, and that filters and formatters do not see them either. Both provisos are needed: an added entry is seen by `?.` and by loops over maps.", "quantifier": "all engines, templates and their includes, data (given as a value or by a value function), sets of added keys, added values, and filters and formatters that do not see them", "why_tests_cant": "It compares the renders of all pairs of data one of which extends the other.", "anchors": ["src/render/value.rs: lookup", "src/render/stack.rs: Stack::lookup_var", "src/render/core.rs: RendererImpl::render_one"]}
{"id": "C63", "title": "functions only see values from the data, literals and filters", "statement": "Filters and formatters are only ever given values that come from the data, from literals in the templates, from `loop` and from the results of filters, and parts of those: if all of these have a property that passes from a value to its parts, then it makes no difference to any render, to a string or to any writer, whether it succeeds or fails, what the filters and formatters would do with values without the property. In particular, if the text of the templates and what the formatters write for values with the property is safe, so is the output, even if the formatters are not safe in general.", "quantifier": "all engines, templates and their includes, data (given as a value or by a value function), writers, properties of values that pass to their parts, and filters and formatters that agree on values with the property", "why_tests_cant": "It says that no value at all is made up on the way, for all properties of values and all pairs of engines that agree on values with the property.", "anchors": ["src/render/core.rs: RendererImpl::render_one, eval_expr", "src/render/stack.rs: Stack::lookup_var", "src/render/iter.rs: LoopState::lookup_var", "src/filters/args.rs: FilterArg"]}
{"id": "C64", "title": "which functions can be filters", "statement": "A function (or closure) can be registered as a filter if and only if it has one parameter for the value and at most four more, where those after the first own what they hold or are `&str` (the first may be any supported type, such as `&str`, `&[Value]`, `&BTreeMap<String, Value>` or `&Value`). There is then exactly one implementation of the filter trait that it could mean, so type inference is not ambiguous, and whichever of the 155 implementations it is, the function is called with the value and then the arguments in the order in which they are written, each converted to the type of its own parameter, or not at all if the number of arguments is wrong.", "quantifier": "all lists of supported parameter types, functions of those types, values, stacks and arguments", "why_tests_cant": "There are infinitely many parameter lists and 155 hand-written implementations; a test registers one function of one signature, and that nothing else is registrable cannot be a test at all.", "anchors": ["src/filters/mod.rs: Filter, FilterArgs, new, check_args, get_arg", "src/filters/impls.rs"]}
{"id": "C65", "title": "a template checked against the shape of its data renders without error", "statement": "If a template fits the shape of its data, then it renders without error for every value of that shape, to a string and on every writer that accepts what it is given. Fitting the shape means: each path leads to a member that the shape has (or is optional); what a loop runs over is a list or a map of the kind that the loop names; each filter exists, accepts values of the shapes of its input and arguments (borrowed ones for reference parameters), and does not fail on them; what is shown can be shown by its formatter; included templates exist, fit the variables visible there, and nest no deeper than the limit. A condition that tests a variable may be used inside its branches.", "quantifier": "all tame templates, included templates, shapes (properties of values), values of the shape, filters, formatters, engines and writers", "why_tests_cant": "A shape has infinitely many values (lists of any length, any strings and numbers); a test renders some of them and cannot show that no value of the shape leads to an error.", "anchors": ["src/render/core.rs: RendererImpl", "src/render/stack.rs: Stack::lookup_var", "src/filters/mod.rs: check_args, get_arg", "src/fmt.rs: default", "src/render/value.rs: lookup_path"]}
{"id": "C66", "title": "what a failed render leaves on the writer", "statement": "When a render to a writer fails, what it has written does not depend on which writer it is (as long as the writer takes what it is given), on the layout, whitespace control, comments or syntax in which the templates are written, on the names of the variables that they bind, on whether parts are included or written in place, or on a rewriting by the laws of C49. Rendering a template that says what two templates say one after the other is rendering the first and then, if it succeeded, the second on the same writer: the same result, and the same bytes, also if one of them fails.", "quantifier": "all tame templates and included templates, syntaxes, layouts, values, engines, and writers that take what they are given", "why_tests_cant": "There are infinitely many templates and places where a render can fail; a test looks at one failing render on one writer.", "anchors": ["src/render/mod.rs: Renderer::to_writer", "src/render/core.rs: RendererImpl", "src/fmt.rs: Writer"]}
{"id": "C67", "title": "adding functions and templates does not change renders that do not need them", "statement": "If an engine gets more filters, formatters and templates under names that were not taken, or a higher include limit, then a render that succeeded gives the same text, and leaves every writer in the same state; a render that failed fails with the same error, unless that error said that a filter, formatter or template was unknown or that the limit was reached. In that case what it had written is the beginning of what is written now. So removing something leaves the renders that succeed without it as they are.", "quantifier": "all engines, histories of calls that add, templates, values, formatters, template functions and writers", "why_tests_cant": "A test compares one render in two engines; that nothing else depends on what is registered needs all templates, all values and all additions.", "anchors": ["src/lib.rs: Engine::add_filter, add_formatter, add_template, remove_template, remove_function, set_max_include_depth", "src/render/core.rs: RendererImpl", "src/render/mod.rs: Renderer"]}
{"id": "C68", "title": "a loop over a whole is the loops over its parts", "statement": "If a list has the items of one list and then those of another (or a map the entries of one and then those of another), then a loop over it does what the same loop over the first part does and then, if that succeeded, the same loop over the second: the same text, the same error up to its place, and the same bytes on every writer that takes what it is given. The body may use everything except `loop`, whose fields depend on the position in the whole; with `loop` the claim is false.", "quantifier": "all tame loop bodies and included templates that do not ask for the enclosing `loop`, lists, maps, values, engines, and writers that take what they are given", "why_tests_cant": "A test splits one list in one place; that no iteration depends on earlier ones (stale variables, a missing separator, a condition computed once) needs all bodies and all lengths.", "anchors": ["src/render/iter.rs: LoopState", "src/render/core.rs: RendererImpl (LoopStart, LoopNext)", "src/render/stack.rs: Stack"]}
{"id": "C69", "title": "template texts can be written one after the other", "statement": "If two texts are templates, then the one text followed directly by the other is a template, unless something new comes about at the seam (a delimiter that begins in the first text and ends in the second, or whitespace control at the start of the second or the end of the first that reaches whitespace across the seam); and it renders what the two render one after the other: the same text, or the same error as the first that fails up to its place, and the same bytes on every writer that takes what it is given. In particular this holds whenever the first text ends, or the second begins, with a character that is neither whitespace nor part of a delimiter. With a delimiter across the seam the claim is false.", "quantifier": "all pairs of texts, all syntaxes, engines, values, tame included templates, and writers that take what they are given", "why_tests_cant": "A test joins a few texts; that no state of the lexer or parser (trimming, scopes, positions, the searcher's state) leaks over the seam needs all texts and all delimiters.", "anchors": ["src/compile/lex.rs: Lexer::next, Lexer::lex", "src/compile/parse.rs: Parser::parse_template", "src/compile/search/mod.rs: Searcher::find_at"]}
{"id": "C70", "title": "names are labels only", "statement": "If filters, formatters and templates are registered under other names, the entries of the globals (or the names a value function answers to) and the variables get other, distinct names, and all templates use the new names, then every render gives the same text, or the same error up to its place and the template name, which is the new one; and it leaves the same bytes on every writer that takes what it is given, also when it fails. The name `loop` must be kept, and variables can be renamed only where no `include … with` makes the keys of a value the variables of a template.", "quantifier": "all renamings of functions, templates and variables (variables: injective and keeping `loop`), tame templates, engines, globals, value functions, template functions, and writers that take what they are given", "why_tests_cant": "A test renames one filter or variable; that no name is special, is compared with a name of another kind, or depends on the order of the registry needs all names, templates and engines.", "anchors": ["src/lib.rs: Engine::add_filter, Engine::add_formatter, Engine::add_template", "src/render/core.rs: RendererImpl (Apply, Emit, Include)", "src/render/stack.rs: Stack::lookup_var", "src/render/iter.rs: LoopState::lookup_var", "src/render/value.rs: lookup, lookup_path"]}
{"id": "C71", "title": "An interrupted render leaves a beginning of its output", "statement": "At every moment of a render to a writer – so also when it goes no further because a filter, formatter, value function or template function panics, its thread is stopped or the process is killed – what the writer has got is a beginning, in whole characters, of what the undisturbed render writes; on writers that fail, the attempts to write made so far are the first attempts of the whole render. Nothing written is ever taken back. Other renders, on the same engine or even the same writer, have no influence on this.", "quantifier": "all points of interruption, all schedules of any number of renders in threads, templates, engines, globals, and writers", "why_tests_cant": "A test stops a render at one place; that no step writes anything that a later step replaces, reorders or completes needs every point of every run and every interleaving.", "anchors": ["src/render/core.rs: RendererImpl::render_one (Emit, EmitRaw, EmitWith)", "src/fmt.rs: Writer::write_str", "src/render/mod.rs: Renderer::to_writer"]}
{"id": "C72", "title": "Templates can be simplified with what the engine's functions do", "statement": "If a filter does what two others do one after the other, a call of it can replace the two calls; so can a call with other literal arguments, or of another name of the same function, that always gives the same. A call on a literal can be replaced by its result, and a literal that is written by the text the default formatter writes for it. A filter that returns every value as it is can be left out before another call and where a value is written, and one that keeps the truth of every value out of a condition. The default formatter can be named or left out. `{% with e as n %}{{ n }}{% endwith %}` is `{{ e }}`. These rewritings, those of C49, and any sequence of them in both directions, at any places of the template and of the templates it includes, change nothing in the output, the success, the kind and message of an error or the bytes a writer has got when the render fails; only the place in an error may differ. A filter that changes nothing cannot be left out where its result is given a name, because it makes a copy that filters taking an argument by reference refuse.", "quantifier": "all templates and included templates, sequences of rewritings, functions, default formatters, globals, engines and accepting writers", "why_tests_cant": "The claim is about every pair of templates related by any number of rewritings, and about every filter that satisfies the equation; tests compare single pairs.", "anchors": ["src/render/core.rs: RendererImpl::render_one (Apply, Emit, EmitWith)", "src/filters/mod.rs: FilterArgs, Filter", "src/lib.rs: Engine::set_default_formatter, Engine::add_filter, Engine::add_formatter"]}
{"id": "C73", "title": "Whether the include limit can be reached is written in the include tags", "statement": "A render returns the error that the include limit is reached only if there is a chain of include tags, each in the template that the tag before it includes, and as many as the limit (at least one). So if the templates have heights such that every included template is lower than the one that includes it, no limit above the height of the rendered template is ever reached, whatever the data; and a limit above the number of registered templates is reached only if some template includes itself, directly or through others.", "quantifier": "all templates, engines, limits, globals, value functions, template functions, and writers", "why_tests_cant": "A test renders one set of templates with one value; that no data, loop, condition or sequence of includes makes the count of nested includes exceed the static nesting of the tags needs every template and every run.", "anchors": ["src/render/core.rs: RendererImpl::render, Instr::Include, Instr::IncludeWith, max_include_depth", "src/render/mod.rs: Renderer::with_max_include_depth", "src/lib.rs: Engine::set_max_include_depth"]}
{"id": "C74", "title": "Debug output is faithful and discreet", "statement": "`{:?}` of a value shows all of it: two values give the same text exactly if they are the same, up to floats that are not numbers; strings inside are escaped so that no string can imitate another value or the text around it. `{:?}` of an engine shows the names and kinds of its functions, the names of its templates and the include limit – all of this and nothing else: two engines give the same text exactly if these agree, whatever the sources of their templates, their syntax and their default formatter are. `{:?}` of a template shows nothing about it, and that of a registered template exactly its name.", "quantifier": "all values, engines, templates, and all sets of printable characters", "why_tests_cant": "A test compares the text of a few values; that no two different values or engines can ever look the same needs all strings, including those that contain quotes, braces and escape sequences.", "anchors": ["src/value/mod.rs: derive(Debug) for Value", "src/lib.rs: Debug for Engine, EngineBoxFn, Template, TemplateRef", "src/types/program.rs: Debug for Template"]}
{"id": "C75", "title": "Equality of values", "statement": "`==` on values is symmetric and transitive; a value is equal to itself exactly if no float inside it is not a number; equal values without floats that are zero are the same value, so they render, serialize and show themselves the same; equal values always choose the same branches of conditions and have equally many items. With zeros the claim that equal values render the same is false: 0.0 == -0.0, but they are written as 0 and -0.", "quantifier": "all values", "why_tests_cant": "Tests compare with `==` themselves and so assume that equal values are interchangeable; that needs all pairs of values, of any depth.", "anchors": ["src/value/mod.rs: derive(PartialEq) for Value", "src/render/value.rs: ValueCow::as_bool"]}
{"id": "C76", "title": "Text between tags decides nothing", "statement": "Take two templates (with the templates they include) that have the same tags, but other text before, between and after the tags, where corresponding pieces of text are alike in some way that is kept by putting texts together. Then an engine accepts both or neither, and the renders of both succeed with outputs that are alike in that way, or both fail with the same error up to its place, or both panic; on a writer that takes what it is given, what is written is alike too, also by a failed render. So changing white space between tags changes only white space of the output, and whether a render succeeds does not depend on the text at all.", "quantifier": "all templates, globals, filters, formatters, template functions, include depths, and all ways to compare texts that are reflexive and kept by concatenation", "why_tests_cant": "It is a relation between two renders, for every template, every change of its text and every way to compare texts.", "anchors": ["src/compile/lex.rs: Lexer", "src/compile/parse.rs: parse_stmt", "src/render/core.rs: Instr::EmitRaw"]}
{"id": "C77", "title": "The default formatter is the formatter of tags that name none", "statement": "If the default formatter of an engine is also registered under a name, then writing that name in every tag that ends without a formatter (`{{ e }}` becomes `{{ e | name }}`), in the template and in those it includes, gives the same output, or the same error up to its place, whatever the default formatter of the engine that renders the new templates is; on a writer that takes what it is given, also what a failed render leaves is the same.", "quantifier": "all templates, globals, filters, formatters, template functions, include depths and pairs of default formatters", "why_tests_cant": "It is a relation between two renders for every template, engine and data; tests see single tags.", "anchors": ["src/render/core.rs: Instr::Emit, Instr::EmitWith", "src/lib.rs: Engine::set_default_formatter, Engine::add_formatter", "src/compile/mod.rs: Compiler::compile_stmt"]}
{"id": "C78", "title": "A template function that answers from the engine's templates changes nothing", "statement": "If a template function gives, for every name, the engine's template of that name, and the error `unknown template` if there is none, then a render with it returns exactly what the render without it returns (text, error and place), and leaves every writer in the same state.", "quantifier": "all engines, templates, globals, template functions of this kind and writers, also failing ones", "why_tests_cant": "It relates two renders, for all includes at all depths and all failures on the way.", "anchors": ["src/render/core.rs: get_template", "src/render/mod.rs: Renderer::with_template_fn"]}
{"id": "C79", "title": "A variable can be replaced by its value", "statement": "If a variable, with its path, leads in the globals to a boolean, number or string, and the template does not bind its name at that place, it can be replaced by a literal with that value, in tags, arguments, conditions and sequences: the render returns the same text, or the same error up to the place it points at, and leaves the same bytes on a writer. The same holds in all templates at once for names that no template binds, if no template is included with globals of its own. Where the variable alone is given another name by `with`, it must stay: the copy of a literal is not accepted as an argument by reference.", "quantifier": "all engines, templates, globals given as data or a value, choices of occurrences, template functions and writers that take what they are given", "why_tests_cant": "It relates two renders for every choice of occurrences in every template, through all nestings, includes and failures.", "anchors": ["src/render/core.rs: Instr::ExprStart, Instr::ExprStartLit", "src/render/stack.rs: lookup_var", "src/filters/mod.rs: FilterArgs"]}
{"id": "C80", "title": "The order in which an engine is set up does not matter", "statement": "After any history of add_template, remove_template, add_filter, add_formatter, remove_function, set_default_formatter and set_max_include_depth, the engine is decided by the last call about each template name, each function name, the default formatter and the limit that did not fail, a removal being as good as no call. So calls about different things can be made in any order, a call makes earlier calls about the same thing irrelevant, and after a removal the engine is as if nothing had ever been added under the name. Likewise a syntax builder has the delimiters of the last call for each of expressions, blocks and comments, whatever the order, and a call panics exactly if a delimiter is empty.", "quantifier": "all syntaxes, all pairs of histories of any length, with any names, texts, filters and formatters", "why_tests_cant": "It compares all interleavings of all histories of calls; a test compares a few.", "anchors": ["src/lib.rs: Engine::add_template, Engine::remove_template, Engine::add_filter, Engine::add_formatter, Engine::remove_function, Engine::set_default_formatter, Engine::set_max_include_depth", "src/types/syntax.rs: SyntaxBuilder::expr, SyntaxBuilder::block, SyntaxBuilder::comment"]}
{"id": "C81", "title": "A template can be specialised to data that are known", "statement": "Rendered with globals g, a template and its specialisation to g behave alike (the same text, the same error up to its place, the same bytes on a writer): tags whose value is known (from g, literals and the answers of filters) may be replaced by the text that the formatter writes, conditions that are known may be decided – the other branch may be anything –, and loops over what is known to be empty may be left out, anywhere in the template, as long as the variables are not bound by the template itself. If everything is known, the template renders to the text that is left.", "quantifier": "all templates and syntaxes, all globals, all filters and formatters, all places and combinations of replacements, all included templates (without a plain include inside a with block, defect 1)", "why_tests_cant": "It relates all pairs of a template and a specialisation of it, at any depth of nesting and with any data; tests compare chosen pairs.", "anchors": ["src/render/core.rs: Instr::JumpIfTrue, Instr::JumpIfFalse, Instr::LoopStart, Instr::Emit, Instr::EmitWith, Instr::Apply", "src/render/stack.rs: lookup_var"]}
{"id": "C82", "title": "A template can be rendered ahead, loops included", "statement": "Rendered with globals g, a template and what is left of it after rendering ahead behave alike (the same text, the same error up to its place, the same bytes on a writer): besides what C81 allows, a loop over a list or map that is known may be replaced by its rounds written out one after the other, each with the item (or key and value), loop.index, loop.first and loop.last of its round, and a with block for a known value may be replaced by its body, anywhere and nested in any way. What is not known stays; it must not use a variable of a block that disappears. If nothing but text is left, that is what the template renders to; and a template without includes and ?. that renders to a text can be rendered ahead to it.", "quantifier": "all templates and syntaxes, all globals, all lengths of lists and maps, all nestings, all filters (with arguments by value or by reference) and formatters, all included templates (without a plain include inside a with block, defect 1)", "why_tests_cant": "It relates all pairs of a template and a partial evaluation of it, with loops of any length in any nesting; tests compare chosen pairs.", "anchors": ["src/render/core.rs: Instr::LoopStart, Instr::LoopNext, Instr::WithStart, Instr::WithEnd, Instr::JumpIfFalse, Instr::Emit, Instr::Apply", "src/render/iter.rs: LoopState", "src/render/stack.rs: lookup_var"]}
{"id": "C83", "title": "Trim markers take only white space away", "statement": "Two templates that have the same tags and the same text between the tags, and differ only in which delimiters carry a trim marker (`{{-`, `-%}`, `{#-` …), in comments, in blanks inside tags and in the delimiters of their syntaxes, behave alike: an engine accepts both or neither; both render, with the same globals and functions, to texts that are the same apart from white space, or both fail with the same error up to its place; and on a writer that takes what it is given they leave bytes of texts that are the same apart from white space, also when they fail. The same holds if the templates that they include differ in this way.", "quantifier": "all template texts, syntaxes, placements of trim markers and comments, globals, functions, formatters, included templates and writers (without a plain include inside a with block, defect 1; without an end delimiter that ends in white space before a left-trimming one, defect 2)", "why_tests_cant": "It relates all pairs of templates that differ in markers anywhere; tests compare chosen pairs.", "anchors": ["src/compile/lex.rs: Lexer::next, lex_template, lex_block, lex_comment (left_trim)", "src/types/syntax.rs: Kind"]}
{"id": "C84", "title": "Every text can be written as a template", "statement": "For every text there is a template that renders to exactly this text, with any globals: in every standard syntax the tag with the text as a string literal (quotes, backslashes and line breaks escaped; `{{ \"…\" }}` in the default syntax) compiles and renders to the text with the default formatter; if the syntax has comments and no delimiter is a single character, the text as it is, with comments that keep apart characters that would make a delimiter, compiles and renders to the text with any formatter; and texts and string literals in tags may be mixed, if no delimiter comes about by accident, and render to their texts one after the other. Nothing else can be the result.", "quantifier": "all texts, all standard syntaxes, all globals, formatters of the engine (default formatter for literals), include depths and names", "why_tests_cant": "It ranges over all texts, with delimiters, quotes and escapes anywhere, and over all syntaxes.", "anchors": ["src/compile/lex.rs: lex_string, lex_comment, lex_template", "src/compile/parse.rs: parse_string", "src/fmt.rs: default", "src/render/mod.rs: Renderer::to_string"]}
