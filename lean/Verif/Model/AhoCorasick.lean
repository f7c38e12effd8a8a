import Verif.Model.Syntax
/-
The Aho–Corasick searcher (src/compile/search/ahocorasick/{state,build,mod}.rs and
src/compile/search/mod.rs), as the imperative program it is: a vector of states that is built
by inserting patterns into a trie and then by a breadth first search that fills in failure
links.  Every index into the vector and every assertion returns `none` (a Rust panic) when it
fails; loops without a syntactic bound take fuel and also return `none` when it runs out.
-/
namespace Upon.AC

/-- src/compile/search/ahocorasick/state.rs:7. -/
def FAIL : Nat := 0
/-- src/compile/search/ahocorasick/state.rs:10. -/
def DEAD : Nat := 1
/-- src/compile/search/ahocorasick/state.rs:13. -/
def START : Nat := 2

/-- Models `struct Pattern`, src/compile/search/ahocorasick/mod.rs:28-33. -/
structure Pattern where
  id : Nat
  len : Nat
deriving DecidableEq, Repr

/-- Models `struct State`, src/compile/search/ahocorasick/state.rs:16-29. The array of 256
transitions is a function from bytes. -/
structure State where
  trans : UInt8 → Nat
  fail : Nat
  matches_ : List Pattern
  depth : Nat

/-- Models `State::is_match`, src/compile/search/ahocorasick/state.rs:38-40. -/
def State.isMatch (s : State) : Bool := !s.matches_.isEmpty

/-- Models `State::set_transition`, src/compile/search/ahocorasick/build.rs:283-285. -/
def State.setTrans (s : State) (b : UInt8) (to : Nat) : State :=
  { s with trans := fun x => if x = b then to else s.trans x }

/-- The states of the automaton. -/
abbrev Auto := List State

/-- Models `Builder::push_state`, src/compile/search/ahocorasick/build.rs:240-248: appends a state
and returns its id. -/
def pushState (a : Auto) (depth : Nat) : Auto × Nat :=
  (a ++ [{ depth, fail := START, trans := fun _ => FAIL, matches_ := [] }], a.length)

/-- Models `Builder::state_mut` followed by a write, build.rs:265-267; `none` is an index panic. -/
def modifyState (a : Auto) (id : Nat) (f : State → State) : Option Auto :=
  if id < a.length then some (a.modify id f) else none

/-- Models `fn all`, build.rs:299-301: `0..=255`. -/
def allBytes : List UInt8 := (List.range 256).map UInt8.ofNat

/-- The inner loop of `build_initial_trie`, build.rs:112-122: walk down from `id` creating missing
states. -/
def insertWord (a : Auto) (id depth : Nat) : List UInt8 → Option (Auto × Nat)
  | [] => some (a, id)
  | b :: w => do
    let s ← a[id]?
    let next := s.trans b
    if next = FAIL then
      let (a, next) := pushState a (depth + 1)
      let a ← modifyState a id (·.setTrans b next)
      insertWord a next (depth + 1) w
    else
      insertWord a next (depth + 1) w

/-- Models `build_initial_trie`, build.rs:103-127. -/
def buildTrie (a : Auto) : List (Nat × List UInt8) → Option Auto
  | [] => some a
  | (pid, pat) :: rest => do
    let (a, id) ← insertWord a START 0 pat
    let a ← modifyState a id (fun s => { s with matches_ := s.matches_ ++ [⟨pid, pat.length⟩] })
    buildTrie a rest

/-- The loops at build.rs:69-73, 78-82 and 90-94: rewrite the transitions of one state that
currently go to `from_`. -/
def redirect (from_ to : Nat) (bytes : List UInt8) (s : State) : State :=
  bytes.foldl (fun s b => if s.trans b = from_ then s.setTrans b to else s) s

/-- Models `Builder::copy_matches`, build.rs:223-238. -/
def copyMatches (a : Auto) (src dst : Nat) : Option Auto :=
  if src = dst then none else do
    let s ← a[src]?
    modifyState a dst (fun d => { d with matches_ := d.matches_ ++ s.matches_ })

/-- The failure walk at build.rs:181-187 (`fuel` bounds the walk). -/
def failTarget (a : Auto) (byte : UInt8) : Nat → Nat → Option Nat
  | 0, _ => none
  | fuel + 1, id => do
    let s ← a[id]?
    if s.trans byte = FAIL then failTarget a byte fuel s.fail else some (s.trans byte)

/-- An entry of the breadth first queue: state and match depth, build.rs:143,179. -/
abbrev Queue := List (Nat × Option Nat)

/-- The initialisation loop of `fill_failure_transitions`, build.rs:134-157. -/
def initQueue (a : Auto) (q : Queue) : List UInt8 → Option (Auto × Queue)
  | [] => some (a, q)
  | byte :: rest => do
    let start ← a[START]?
    let next := start.trans byte
    if next ≠ START then
      let matchDepth := if start.isMatch then some 0 else none
      let q := q ++ [(next, matchDepth)]
      let n ← a[next]?
      let a ← if n.isMatch then modifyState a next (fun s => { s with fail := DEAD }) else some a
      initQueue a q rest
    else
      initQueue a q rest

/-- One iteration of the byte loop of `fill_failure_transitions`, build.rs:162-208.  `usize`
subtraction underflow (a panic or wrap in Rust) is `none`. -/
def fillByte (fuel : Nat) (a : Auto) (q : Queue) (curr : Nat) (matchDepth : Option Nat)
    (byte : UInt8) : Option (Auto × Queue) := do
  let c ← a[curr]?
  let next := c.trans byte
  if next = FAIL then
    some (a, q)
  else
    let n ← a[next]?
    let nextMatchDepth ← match matchDepth with
      | some d => some (some d)
      | none =>
        if n.isMatch then do
          let p ← n.matches_.head?
          if p.len ≤ n.depth then some (some (n.depth - p.len + 1)) else none
        else some none
    let q := q ++ [(next, nextMatchDepth)]
    let fail ← failTarget a byte fuel c.fail
    match nextMatchDepth with
    | some md => do
      let f ← a[fail]?
      if n.depth < md then none
      else if n.depth - md + 1 > f.depth then
        let a ← modifyState a next (fun s => { s with fail := DEAD })
        some (a, q)
      else if n.fail = START then none
      else
        let a ← modifyState a next (fun s => { s with fail := fail })
        let a ← copyMatches a fail next
        some (a, q)
    | none => do
      let a ← modifyState a next (fun s => { s with fail := fail })
      let a ← copyMatches a fail next
      some (a, q)

/-- The byte loop of `fill_failure_transitions`, build.rs:162-208. -/
def fillBytes (fuel : Nat) (curr : Nat) (matchDepth : Option Nat) (a : Auto) (q : Queue) :
    List UInt8 → Option (Auto × Queue)
  | [] => some (a, q)
  | byte :: rest => do
    let (a, q) ← fillByte fuel a q curr matchDepth byte
    fillBytes fuel curr matchDepth a q rest

/-- The queue loop of `fill_failure_transitions`, build.rs:159-220. -/
def fillLoop : Nat → Auto → Queue → Option Auto
  | _, a, [] => some a
  | 0, _, _ :: _ => none
  | fuel + 1, a, (curr, matchDepth) :: q => do
    let prevLen := q.length
    let (a, q) ← fillBytes (a.length + 1) curr matchDepth a q allBytes
    let c ← a[curr]?
    let a ← if q.length = prevLen ∧ c.isMatch then
        modifyState a curr (fun s => { s with fail := DEAD })
      else some a
    fillLoop fuel a q

/-- Models `fill_failure_transitions`, build.rs:129-221. The queue is given one unit of fuel per
state: each state is enqueued at most once. -/
def fillFailure (a : Auto) : Option Auto := do
  let (a, q) ← initQueue a [] allBytes
  fillLoop a.length a q

/-- Models `Builder::build`, build.rs:55-99. -/
def build (pats : List (Nat × List UInt8)) : Option Auto := do
  let (a, _) := pushState [] 0
  let (a, _) := pushState a 0
  let (a, _) := pushState a 0
  let a ← buildTrie a pats
  let a ← modifyState a START (redirect FAIL START allBytes)
  let a ← modifyState a DEAD (redirect FAIL DEAD allBytes)
  let a ← fillFailure a
  let start ← a[START]?
  if start.isMatch then modifyState a START (redirect START DEAD allBytes) else some a

/-- Models `AhoCorasick::next_state`, ahocorasick/mod.rs:83-92 (`fuel` bounds the walk along
failure links). -/
def nextState (a : Auto) (byte : UInt8) : Nat → Nat → Option Nat
  | 0, _ => none
  | fuel + 1, id => do
    let s ← a[id]?
    if s.trans byte ≠ FAIL then some (s.trans byte) else nextState a byte fuel s.fail

/-- Models `struct Match`, ahocorasick/mod.rs:22-26. -/
structure Match where
  pattern : Pattern
  end_ : Nat
deriving DecidableEq, Repr

/-- Models `get_match(state, 0, end)`, ahocorasick/mod.rs:76-81; the outer `none` is an index panic. -/
def getMatch (a : Auto) (id : Nat) (end_ : Nat) : Option (Option Match) := do
  let s ← a[id]?
  some (s.matches_.head?.map (⟨·, end_⟩))

/-- The loop of `AhoCorasick::find_at`, ahocorasick/mod.rs:53-73; `hay` is the haystack from
offset `at_`. The outer `none` is a panic. -/
def findLoop (a : Auto) (hay : List UInt8) (at_ : Nat) (state : Nat) (last : Option Match) :
    Option (Option Match) :=
  match hay with
  | [] => some last
  | b :: hay => do
    let state ← nextState a b (a.length + 1) state
    let at_ := at_ + 1
    if state = DEAD then some last
    else
      let m ← getMatch a state at_
      findLoop a hay at_ state (m.or last)

/-- Models `AhoCorasick::find_at`, ahocorasick/mod.rs:45-74. -/
def findAt (a : Auto) (haystack : List UInt8) (at_ : Nat) : Option (Option Match) := do
  let last ← getMatch a START at_
  findLoop a (haystack.drop at_) at_ START last

/-- Models `Searcher::new`, src/compile/search/mod.rs:12-15. -/
def new (syn : Syn) : Option Auto := build (syn.map fun p => (p.1.toUsize, utf8 p.2))

/-- Models `Searcher::find_at`, src/compile/search/mod.rs:17-25, with `Match::start`
(ahocorasick/mod.rs:105-107); the outer `none` is a panic (`usize` underflow or
`Kind::from_usize`). -/
def searcherFindAt (a : Auto) (haystack : List UInt8) (at_ : Nat) :
    Option (Option (Kind × Nat × Nat)) := do
  match ← findAt a haystack at_ with
  | none => some none
  | some m =>
    let kind ← Kind.fromUsize m.pattern.id
    if m.pattern.len ≤ m.end_ then some (some (kind, m.end_ - m.pattern.len, m.end_)) else none

/-- Models `Searcher::starts_with`, src/compile/search/mod.rs:27-37. -/
def searcherStartsWith (a : Auto) (haystack : List UInt8) (at_ : Nat) :
    Option (Option (Kind × Nat)) := do
  match ← searcherFindAt a haystack at_ with
  | none => some none
  | some (kind, i, j) => some (if at_ = i then some (kind, j) else none)

end Upon.AC
