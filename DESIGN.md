# A Lean 4 model of `upon` and its theorems

`upon` (/repo, Rust) is a template engine: a configurable delimiter searcher
(Aho–Corasick), a lexer, a recursive parser with explicit block/scope stacks, a
compiler to a flat instruction list, and a virtual machine that renders it.

## Layout

* `lean/Verif/Model/*.lean` – the model, function by function, each definition citing the
  Rust file and lines it models and naming its simplifications.
* `lean/Verif/Spec/*.lean` – small independent specifications (what a delimiter
  occurrence is, the grammar, the structural semantics, …).  They never call the model's
  algorithms.
* `lean/Verif/Proofs/*.lean` – lemmas.
* `lean/Verif/Props/*.lean` – the property theorems, named `Cxx_…` after the ids in
  `properties.jsonl`, with examples showing that the hypotheses are met.
* `lean/Verif/Examples/*.lean` – larger examples, run on the engine of `Proofs/Demo.lean`:
  ten templates with every kind of statement, whose sources are compiled by the model.
* `MANIFEST.json` – the theorems of each property (`manifest.py` regenerates it).
* `conformance/` – the project's own tests, transcribed and evaluated on the model. This is
  testing of the transcription, not proof.
* `seeded/LOG.jsonl` – wrong programs tried against the theorems.

## What is modelled

| Rust | Lean |
|---|---|
| `types/span.rs`, `str` slicing, UTF-8 offsets | `Model/Text` |
| `error.rs` (kinds, names, reasons, locations) | `Model/Error` |
| `error.rs` (`Display`, `source`) | `Model/Display` |
| `types/syntax.rs` | `Model/Syntax` |
| `compile/search/*` | `Model/AhoCorasick` |
| `compile/lex.rs` | `Model/Lexer` |
| `types/ast.rs` | `Model/Ast` |
| `compile/parse.rs` | `Model/Parser` |
| `compile/mod.rs`, `types/program.rs` | `Model/Compiler` |
| `value/mod.rs`, `value/cow.rs` | `Model/Value` |
| `value/from.rs`, `value/ser/*` | `Model/Ser` |
| `macros.rs` | `Model/Macro` |
| `render/stack.rs`, `render/iter.rs`, `render/value.rs` | `Model/Stack` |
| `fmt.rs` | `Model/Fmt` |
| `filters/*` | `Model/Filter`, `Model/Typed` |
| `render/core.rs` | `Model/Render` |
| `lib.rs`, `render/mod.rs` | `Model/Engine`, `Model/Api` |

## Modelling conventions

* Text is `List Char` with UTF-8 byte offsets; slicing returns `Option` where `none` is
  Rust's slice panic (out of range or not on a character boundary).
* A Rust panic is an explicit outcome (`crash`/`none`); proving "never panics" means
  proving that outcome unreachable. Loops that Rust runs without a visible bound are run
  with fuel, running out of fuel is an explicit outcome, and it is proved unreachable for
  the fuel the model passes; rendering is a step relation and a render has an outcome if
  some number of steps reaches it (C15 shows that one always does).
* `i64`, `usize` arithmetic: integers with explicit range checks where the code checks.
  `usizeBits` is a parameter.
* External functions are parameters (an `Env` structure) and all theorems quantify
  over them: `f64` parsing and display, `f32` conversion, `unicode_ident::is_xid_*`,
  `unicode_width`. The crate without its `unicode` feature is the instance in which these
  are the ASCII functions. Theorems that need more of them (e.g. that printable ASCII
  has width one) take that as a hypothesis.
* std's `Display` of an integer writes at most two pieces, the sign and the digits; of a
  float, the pieces are a parameter; of a bool or string, one piece.
* User code is a parameter: filters, formatters (interaction trees that may write any
  number of times and look at each result), writers (any state machine that may accept
  part of a write and fail), template and value providers (functions).
* For `value!`: a run of tokens that Rust reads as one expression is one token. How Rust
  itself recognises expressions is not modelled.
* serde: a serialisable value is its tree of serde data-model calls (`SV`).

## Trusted base

* Lean's kernel, and the axioms `propext`, `Classical.choice`, `Quot.sound` (each theorem's
  axioms are listed by `vcheck`; no others are used).
* That the model transcribes the Rust: by the citations in each definition.
* Not modelled: memory allocation and exhaustion, stack overflow of Rust's own recursion
  (the parser and `to_value` recurse), performance, `f64` arithmetic itself, the internals of std's
  collections (`BTreeMap` is a strictly sorted association list, `Vec` a list), `Debug`
  output other than that of errors, values, engines and templates in one line (`{:?}`), the doc-module `src/syntax.rs`, threads that interrupt a single write or a call of a filter; panics of filters, formatters and other functions of the user are modelled only as points of interruption (C71). Side effects of filters,
  formatters and value functions are modelled only for C58; elsewhere they are functions of their arguments.

## Plan per property

(The status of every property is in MANIFEST.json.)

* C01, C02 – model `search/*` imperatively (state vector, BFS queue); invariants tie each
  state to a trie word; spec: leftmost/longest/first occurrence (`Spec/Search`).
* C03–C06, C08, C37, C39 – `lex.rs` as a step function on a lexer state; invariant
  on cursor positions gives spans, losslessness and trimming; spec: a layout of the source into
  raw text, tags and comments (`Spec/Lexing`).
* C07, C09–C12 – `parse.rs`; a grammar as inductive relations on tokens (`Spec/Grammar`);
  soundness, completeness and unambiguity by induction. C10–C12 state what a literal denotes; C11
  decides for every text whether it can be written as a literal.
* C13 – calls of filters and formatters as a trace of the run (`Spec/Trace`).
* C16 – compiler correctness: the code of a tree, placed anywhere in a program, simulates a
  structural evaluator (`Spec/Semantics`) that follows the documentation, and one that follows the
  code's known deviations; the two agree where no deviation can show (`Spec/Apart`, `Props/Quirks`).
* C15, C17, C18, C20–C24, C27, C30 – properties of every piece of a template at every
  point of every run (`Spec/Rendering`: `Piece`, `Live`), derived from the simulation.
* C14 – a run panics only in a piece that reads a name through a `with` outside its own template
  (`Spec/Blame`); conversely conditions that exclude it.
* C19 – every value in a run has ordered maps (`Spec/Data`, `Proofs/OrderedRun`).
* C23 – runs that differ only in the limit (`Spec/Steps`, `Proofs/Steps`).
* C25, C26 – runs over two sinks in lock step (`Proofs/Lock`, `Props/Output`, `Props/Writers`).
* C28, C29, C40 – registries as refinement of a map over all histories (`Spec/History`).
* C31, C32 – `filters/*`, `fmt.rs`.
* C33, C34, C38 – `value/ser/*`, `value/from.rs` over a serde data-model tree.
* C35, C36 – every error is raised in a template that owns it and at a span of its source. Where a location leads is proved for every text and
  width function (`Counted` in `Spec/Location`), and for ASCII that it is the right place.
* C41 – the displayed text as a picture: lines, columns, carets (`Spec/Report`).
* C42 – the macro's rules as a function on token trees; spec: what is spelled and what it means
  (`Spec/Macro`); soundness and completeness by induction on the tokens.
* C43 – the meaning (C16) of a tree is the same in two configurations that agree on what the reachable trees
  mention (`Spec/Mentions`); induction on trees and remaining depth (`Proofs/Mentions`).
* C44 – what the tokens say without their places (`Spec/Words`) determines the tree without byte ranges, by a parser on
  words (`Proofs/Words`), and the meaning (C16) does not depend on byte ranges (`Proofs/Plain`).
* C45, C46 – on trees without byte ranges: output and requests made before shift through a run (`Proofs/Compose`), a tree with
  an include replaced by the included tree has the same meaning; on words: concatenation and replacement of words give
  concatenation and replacement of trees.
* C47 – the writer's state is threaded only through raw text and formatter writes: an invariant of the sink state by induction over the
  semantics (`Proofs/Escaping`), transferred to the compiled run by C16. The example formatter of `examples/escape_html.rs` is modelled.
* C48 – a simulation between the run with a value and the run with a function that answers from it (`Spec/Globals`): values are the same up to
  being owned or borrowed (`Proofs/Globals`); by-reference arguments are the only place that tells them apart (counterexample in `Examples/Globals`).
* C49 – on trees without byte ranges (`Spec/Plain`): the laws and their closure under contexts (`Spec/Refactor`) keep the meaning, by induction on
  the rewriting; names that are not used do not matter (`Proofs/Refactor`); the rewritten included templates by induction on the remaining depth.
* C50 – a relation between scopes that bind the same values under other names; look-up respects it, by induction on the scope, then on trees
  (`Proofs/Refactor`). The exception (defect 3) is a concrete counterexample in `Examples/Refactor`.
* C51 – a deterministic machine on words (`Proofs/Machine`) that accepts exactly the words of the grammar and can be completed to a
  template from each of its states (`Proofs/Completion`), so that "beginning of a template" and "part of a tag" are decided by it; then the
  parser model runs in step with it (`Proofs/Diag*`), by induction on the tokens, and each of its errors is at the token where the machine
  stops. `Viable` and `Sayable` speak of words of the grammar (any text may be the text of an identifier), not of source texts.
* C52 – `Scans` (the layout of C06, up to a place) and `Stuck` (what is wrong there) in `Spec/Stuck`; the lexer model runs in step with
  them, by induction on its steps in one direction and on the scan in the other (`Proofs/Stuck`); that compile reports this error follows
  from C51, because each of its other cases would contradict the tokens before the place (`Proofs/StuckErr`).
* C53 – a printer from words to text and from trees to words (`Spec/Print`); its text has a layout that says these words, by induction on the
  words with the pending text as a parameter (`Proofs/Print`), the words for a tree are those of the grammar of C45 (`Proofs/PrintTree`), and a
  text with such a layout compiles (C45). A layout in any syntax says words that are spelled right, by induction on it.
* C54 – the typed layer over filters (`Model/Typed`): parameter types as Lean types, functions as curried functions of them, applied to a tuple.
  What a parameter holds is specified by `Holds` (`Spec/Typed`), and related to the conversions of C31. The 150 generated impls are one
  definition by recursion on the list of parameters; it allows more than four arguments and borrowed lists, maps and values as arguments, which
  Rust's impls do not.
* C55 – the public rendering functions (`Model/Api`); a simulation between two runs that differ in the name of the first template or in where
  included templates come from (`Proofs/Ways`). `Spec/Ways` says how outcomes compare.
* C56 – the build without the feature `unicode` (`Model/Features`) is an instance of the external functions. A congruence over every function of the
  lexer, parser and renderer for two instances (`Proofs/Features`, `Proofs/FeaturesRender`); that larger tables accept more goes through the
  layout and the grammar (`Proofs/FeaturesUp`). The feature `filters`, when off, leaves no way to register a filter: that build is the
  sub-case of engines without filters (src/render/core.rs:146, 231), and the feature `serde`, when off, leaves only `render_from`.

* C57 – threads that take turns between instructions and between the writes of a formatter (`Model/Threads`: the outputs are shared state, a thread's sink writes
  to its part of it); an invariant relates each thread to its render alone after as many turns, using the simulation between sinks
  (`Proofs/Lock`) and that other threads' writes leave a thread's part alone.
  A shared writer that may fail (`Props/SharedErrors`): every turn of a thread keeps the invariant that stored errors come from the thread's own writes.
* C58 – functions with interior mutability (`Model/Effects`): at moment `i`, one for each instruction, they behave as the `i`th element of an
  arbitrary sequence says; what the functions' state is does not matter, as in every run their answers form such a sequence. `Spec/Effects`
  gives each statement a meaning relative to the sequence, as a relation over moments; `Proofs/Effects` repeats the simulation of C16 for it, and
  `Proofs/EffectsSafe` the invariants of C14 and C47. (Simplified: when two arguments of one filter call
  look up the same path in a value function, they get the same answer.)
* C59 – heights of the scope stack are assigned to the positions of the compiled code by recursion on the tree (`Proofs/Size`), every instruction is
  shown to keep to them, and the invariant `Height` relates the stack to the active templates at every reachable state; sizes by induction on the
  layout of the text in tokens and on the grammar. Bytes of values and of Rust's own call stack are not counted.
* C60 – the cost of a statement is bounded by recursion on the tree (`Proofs/Cost`), with the number of rounds of its loops read off the reachable states;
  the depth limit gives the outer induction for includes. That loops run over values with a property that parts inherit is a general invariant of the
  machine (`Proofs/Values`), used with "no list or map in it is longer than n". Steps are instructions of the machine; what a function does inside one
  call is not counted. The size of the output follows: one step writes at most one text or what one call of a formatter writes (`Proofs/Volume`).
* C61 – a logical relation over the evaluator of `Spec/Semantics` (`Proofs/Related`, for any relation on values that preserves kinds, truth and entries),
  carried over to the machine by C16; instantiated with "equal but for strings related by `S`". `Pieces` says how the outputs correspond.
* C62 – the same relation lemma, instantiated with "equal but for added entries with keys in `K`"; `Unaware` says what the templates may not do. Examples show
  that `?.` and loops over maps do see added entries.
* C63 – the invariant "every value in the machine has `P`" for a hereditary `P` (`Proofs/Values`, shared with C60), and with it a lock-step simulation of the same
  machine with functions that agree on `P` (`Proofs/SameOn`). The corollary for the output replaces formatters by ones that write nothing outside `P` and uses C47.
* C64 – `Model/Impls` is a transcription of all 155 impls of `Filter` and the 5 of `FilterArgs` by `tools/gen_impls.py` (which fails on any line it does not
  understand); each impl keeps its generics, bounds, `Fn` signature, tuple, pattern and call. `Model/Signatures` says when an impl applies to a function, and
  runs the two bodies as written (`let`s and patterns bind names, calls use them). That the impls are in order is checked by the kernel on the finite list of
  impls (this is a check of the whole program text, not of a sample of inputs); that the applicable signatures are exactly `CanFilter`, for all types, is proved
  from it by kinds of types, and that the bodies do what `callFilter` in the rest of the model does by cases on the impl and for all arguments. What the type
  checker does with lifetimes and with the return type (`FilterReturn`) is not modelled.
* C65 – `Spec/Shapes` is a small type system for templates without byte ranges: a shape is any property of values, `Sees` and `HasShape` give shapes to
  variables and expressions, `Works` checks statements; `Learns` adds what a condition says about a variable inside its branches. `Proofs/Shapes` proves it sound against
  the plain evaluator (by induction on the derivation, with scopes that fit what is known), and `Props/Shapes` carries that to `to_string` and `to_writer` with
  C16 and C25. Restricted to tame templates (defect 1), and to templates that use no `?.` on the variables of a loop (defect 3). A template that includes
  itself has no derivation, since depth counts down.
* C66 – a render on a writer that takes everything is matched, step by step, with one that collects a string (the relation of C25, kept also when the run fails),
  and that one with the plain evaluator (C16, C44); the laws of C44–C46, C49 and C50 are equations (for includes, a relation) between results of the plain
  evaluator that include the text written so far. Restricted to tame templates, like those laws; crashes (which C14 excludes) say nothing about the writer.
* C67 – `Spec/Richer` says when one engine has more than another and which calls only add. `Proofs/Richer` shows that the two machines take the same step from
  every state, unless the poorer one stops with an error that says what is missing (by cases on the instruction); `Props/Richer` lifts this to whole renders, to
  writers (with the invariant that output only grows) and to histories of calls.
* C68 – `Proofs/Loops` goes through the semantics of C16 without byte ranges: a body that does not ask for `loop` gives the same result whatever the loop's
  position is, so the iterations over `a ++ b` are those over `a` followed by those over `b`; then as in C66. `C68_false_index` shows that the proviso is needed.
* C69 – `Spec.Seamless` states that nothing comes about at the seam, in terms of the delimiters and the two texts only. `Proofs/Seam` shows on the declarative layout
  (C06) that the tokens of the joined text say what those of the parts say; with the grammar (C09) and C45, C66 the claims follow. `C69_false_seam` shows that the
  condition is needed. `Proofs/Tame` shows that tameness depends on what a template says only, so that no claim asks it of the joined template.
* C70 – `Spec.Labels` is a renaming, `Plain.newStmts` a tree with the new names. `Proofs/Labels` shows by induction over the semantics without byte ranges that the
  run with the new names is the run with the old ones, with the names of templates in errors and in the list of asked templates changed. `C70_false_scope` shows that the proviso about `include … with` is needed.
* C71 – an interrupted render is one that gets no more turns in `Model/Threads` (a turn calls a function before it writes, and writes once, so every panic of a
  user's function falls between two turns). `Proofs/Interrupted` shows that a reflexive relation that every write keeps relates the output at any two moments; the
  final output is that of the render alone (C57). A write that is cut short leaves a beginning of what it would have left, so C71_prefix covers it too.
* C72 – `Spec/Simplify`: `Plain.answers` is what a filter says about a value, `Plain.Equal` relates expressions by equations between such answers, `Plain.Simplified`
  closes these and the laws of C49 under contexts. `Proofs/Simplify` shows by induction that the meaning is kept wherever the functions and the default formatter are the
  engine's; then as in C49 and C66. `C72_false_copy` shows why a filter that changes nothing stays before a name.
* C73 – `Spec.ChainTo` follows include tags from tree to tree, without regard to data. `Proofs/Chains` keeps as an invariant of the machine that the frames on its
  stack are such a chain (as in C43), and uses C23 for the exact depth at which the limit strikes; heights and the pigeonhole principle give the two corollaries.
* C74 – `Model/Debug` models `{:?}` (one line) of values, engines and templates, with the escaping of strings by the standard library; which characters are
  printable and how floats show themselves are parameters. `Proofs/Debug` shows that every text can be read back, whatever follows it.
* C75 – `Model/Debug` models the derived `==` with that of `f64` on bits; by induction over values. `C75_false_zero` is the counterexample with zeros.
* C76 – `Spec.Rephrased` on what templates say, `Plain.Retexted` on trees without byte ranges; `Proofs/Texts2` shows that the first gives the second, by induction over
  the grammar on words; `Proofs/Texts` relates the runs by induction over the semantics, for any `Spec.Likeness`. Lifted as C49.
* C77 – `Plain.Explicit` relates trees without byte ranges; `Proofs/Explicit` shows by induction over the semantics that the runs are equal. Lifted as C49.
* C78 – `Proofs/FromFn`: the two machines go step by step through states that differ only in the list of requests.
* C79 – `Spec/Fill` relates trees without byte ranges in which some free variables are literals, with the set of names bound so far. `Proofs/Fill` shows that in every scope that
  occurs the free names still lead to the values of the globals; a literal is owned and a global borrowed, which shows only where the value is handed on (`C79_false_with`).
* C80 – the registries are ascending lists, equal if all look-ups are; C28 and C29 say what look-ups give, in terms of the last call.
* C81 – `Spec/Known` says which values are known and relates trees without byte ranges; `Proofs/Known` shows as in C79 that the free names lead to the values of the globals
  (borrowed, also none) in every scope that occurs, so known expressions evaluate to what is known; then as in C79.
* C82 – `Spec/Ahead` keeps, besides the globals, a list of the variables bound around a place, each either staying or with its known value, and relates trees without byte ranges;
  rounds of a loop are a function of the index. `Proofs/Ahead`: the scopes of the two renders fit – known variables resolve to their values in the first, variables that stay resolve
  alike in both –, which every kind of binding preserves; then by induction over the relation, with an inner induction over the items for the rounds written out.
  The converse for templates without includes and `?.` (`Spec/Alone`, `Proofs/Alone`): whatever evaluates is known, by induction over the tree.
* C83 – `Spec/Trims` reads the tokens of a template without regard to trimming: the text before a tag is all that stands between the end of the token before
  and the start of the tag (`fullWords`). By induction on the layout this is what the trimmed tokens say (`words`, C44) up to white space in texts, if there is
  no empty comment, and grammatical templates have none; so two templates with the same full words are related by C76.
* C84 – `Spec/Escape`: pieces of a text, as they are or in string literals, and what a template with them says. With C53 the text printed from it compiles to a tree that
  says so (with `guarded` comments, any text); such a tree evaluates to the pieces one after the other (C49 and the default formatter), which has no other result (C01).

## Defects found while modelling

Where a documented claim is false of the code, the negation is proved (theorems named `…_false_…`), and the
claim itself is proved under the weakest conditions found.

1. `{% with x as n %}{% include "b" %}{% endwith %}`: the name of a `with` variable is kept as a
   byte range of the *including* template and compared using the *included* template's
   source: a panic or a wrong name (C14, C21).
2. An end delimiter that ends in whitespace followed by a trimming tag yields an inverted
   byte range: panic (C03, C04).
3. `u?.missing` on a loop variable falls through to outer scopes (C24).
4. `"\\"` (string literal ending in an escaped backslash) is not terminated; a text that ends in a
   backslash cannot be written that way (C11; a second closing quote makes it work).
5. Error line/column are wrong for non-ASCII text: display width is compared with bytes (C36).
6. A formatter that ignores a failed write makes `to_writer` succeed with output missing (C26).
7. `max_include_depth = d` allows d−1 nested includes; 0 behaves as 1 (C23).
8. A decimal literal out of i64 range silently becomes a float (C10).
9. Smaller ones: `{{ 0x }}` is the integer 0; `{##}` is an error; `{{ 1-}}` reads `1-` as a number; the location of a bad
   digit in a literal with a sign is off by one or more (`C51_false_signed`); a loop variable called `loop` is hidden by the special variable; a
   format error without reason hides its location in `{e:#}`; `_value!(true)` gives `false` (unreachable
   through `value!`).
10. Not a defect but a documented restriction made precise: filters with by-reference arguments reject variables that
   come from a value function, as these are owned (C48).
