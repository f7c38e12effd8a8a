#!/usr/bin/env python3
"""Transcribes the impls of `Filter` and `FilterArgs` (src/filters/mod.rs, src/filters/impls.rs) into lean/Verif/Model/Impls.lean.

It is a plain transcription: every part of an impl that decides what it does is copied, and anything that the
patterns below do not expect stops the script."""
import re, sys
REPO = '/repo/src/filters/'
OUT = sys.argv[1] if len(sys.argv) > 1 else '/verif/lean/Verif/Model/Impls.lean'

def flat(s):
    s = re.sub(r'\s+', ' ', s)
    s = s.replace('( ', '(').replace(' )', ')').replace(',)', ')').replace(', )', ')')
    return s

def split(s):
    """Splits a tuple at its commas (not those in angle brackets)."""
    out, depth, cur = [], 0, ''
    for c in s:
        if c in '<([':
            depth += 1
        if c in '>)]':
            depth -= 1
        if c == ',' and depth == 0:
            out.append(cur.strip()); cur = ''
        else:
            cur += c
    if cur.strip():
        out.append(cur.strip())
    return out

MARK = {'Str': '.str', 'ListRef': '.listRef', 'MapRef': '.mapRef', 'ValueRef': '.valueRef'}
TYPE = {"&'a str": '.str', "&'a [Value]": '.listRef', "&'a BTreeMap<String, Value>": '.mapRef', "&'a Value": '.valueRef',
        '&str': '.str', '&[Value]': '.listRef', '&BTreeMap<String, Value>': '.mapRef', '&Value': '.valueRef'}

def params(l, table):
    r = []
    for x in l:
        if x in table:
            r.append(table[x])
        else:
            assert re.fullmatch('[VABCD]', x), x
            r.append(f"g'{x}'")
    return '[' + ', '.join(r).replace("g'", ".generic '") + ']'

def chars(l):
    assert all(len(x) == 1 for x in l), l
    return '[' + ', '.join(f"'{x}'" for x in l) + ']'

def impls(path):
    src = open(path).read()
    lines = src.split('\n')
    i = 0
    while i < len(lines):
        if lines[i].startswith('impl<'):
            j = i
            while lines[j] != '}':
                j += 1
            yield i + 1, j + 1, flat('\n'.join(l for l in lines[i:j + 1] if l.strip() != '#[doc(hidden)]'))
            i = j
        i += 1

filters, args, tests = [], [], 0
for f in ['mod.rs', 'impls.rs']:
    for m, n, s in impls(REPO + f):
        mm = re.fullmatch(r"impl<Func, R(?P<g>(?:, \w)*)> Filter<R, \((?P<p>.*?)\)> for Func where Func: Fn\((?P<f>.*?)\) -> R, R: FilterReturn, (?P<b>(?:\w: for<'a> FilterArg<Output<'a> = \w>, )*)"
            r"\((?P<p2>[\w, ]*)\): for<'a> FilterArgs< ?Output<'a> = \((?P<o>.*?)\),? ?>, \{ fn filter<'a>\(&self, \((?P<x>[\w, ]*)\): \((?P<t>.*?)\),?\) -> R \{ self\((?P<c>[\w, ]*)\) \} \}", s)
        if mm:
            g = split(mm['g'].lstrip(', '))
            b = re.findall(r"(\w): for<'a> FilterArg<Output<'a> = (\w)>", mm['b'])
            assert all(x == y for x, y in b), s
            assert split(mm['p']) == split(mm['p2']), s
            filters.append(f"  ⟨{chars(g)}, {params(split(mm['p']), MARK)}, {params(split(mm['f']), TYPE)}, {chars([x for x, _ in b])}, {params(split(mm['o']), TYPE)}, "
                f"{chars(split(mm['x']))}, {params(split(mm['t']), TYPE)}, {chars(split(mm['c']))}⟩ /- src/filters/{f}:{m}-{n} -/")
            continue
        mm = re.fullmatch(r"impl<(?P<g>\w(?:, \w)*)> FilterArgs for \((?P<p>.*?)\) where (?P<b>(?:\w: FilterArg, )*)\{ type Output<'a> = \((?P<o>.*?)\); "
            r"fn from_state\(state: FilterState<'_>\) -> Result<Self::Output<'_>> \{ check_args\(&state, (?P<n>\d)\)\?; let err = \|e\| err_expected_val\(e, state.source, state.filter.span\); "
            r"(?P<r>(?:let .*?; )*)Ok\(\((?P<x>[\w, ]*)\)\) \} \}", s)
        if mm:
            g = split(mm['g'])
            p = split(mm['p'])
            assert all(f'{x}: FilterArg,' in mm['b'] for x in g)
            o = [x.replace("::Output<'a>", '') for x in split(mm['o'])]
            reads = []
            for r in re.findall(r'let .*?; ', mm['r']):
                a = re.fullmatch(r'let (\w) = (\w)::from_cow_mut\(state.value\).map_err\(err\)\?; ', r)
                if a:
                    reads.append(f"('{a[1]}', '{a[2]}', none)")
                    continue
                a = re.fullmatch(r'let (\w) = get_arg::<(\w)>\(state.source, state.stack, state.args, (\d)\)\?; ', r)
                reads.append(f"('{a[1]}', '{a[2]}', some {a[3]})")
            args.append(f"  ⟨{chars(p)}, {chars(o)}, {mm['n']}, [{', '.join(reads)}], {chars(split(mm['x']))}⟩ /- src/filters/{f}:{m}-{n} -/")
            continue
        assert 'Filter<' not in s and 'FilterArgs for' not in s, (f, m, s)

assert len(re.findall(r'Filter<R, ', open(REPO + 'impls.rs').read())) + 5 == len(filters)
groups = [filters[i:i + 40] for i in range(0, len(filters), 40)]
text = '''import Verif.Model.Filter
/-
The implementations of `Filter` and `FilterArgs`: src/filters/mod.rs:179-361 and src/filters/impls.rs.

Written by tools/gen_impls.py.
-/
namespace Upon

/-- A parameter of an impl: a type variable, or one of the borrowed types – `&str` (`Str`), `&[Value]` (`ListRef`), `&BTreeMap<String, Value>` (`MapRef`),
`&Value` (`ValueRef`); the correspondence of types and markers is that of `FilterArg::Output`, src/filters/args.rs:150, 200, 250, 294. -/
inductive Param where
  | generic (n : Char)
  | str | listRef | mapRef | valueRef
deriving DecidableEq, Repr

/-- An impl of `Filter`, such as

    impl<Func, R, A> Filter<R, (Str, A)> for Func
    where
        Func: Fn(&str, A) -> R,
        R: FilterReturn,
        A: for<'a> FilterArg<Output<'a> = A>,
        (Str, A): for<'a> FilterArgs<Output<'a> = (&'a str, A)>,
    {
        fn filter<'a>(&self, (v, a): (&'a str, A)) -> R {
            self(v, a)
        }
    }
-/
structure FilterImpl where
  /-- `impl<Func, R, A>`, without `Func` and `R` -/
  generics : List Char
  /-- `Filter<R, (Str, A)>` -/
  params : List Param
  /-- `Func: Fn(&str, A) -> R` -/
  func : List Param
  /-- `A: for<'a> FilterArg<Output<'a> = A>` -/
  owned : List Char
  /-- `FilterArgs<Output<'a> = (&'a str, A)>` -/
  output : List Param
  /-- `(v, a)`, the pattern of `fn filter` -/
  names : List Char
  /-- `(&'a str, A)`, the type of the pattern -/
  types : List Param
  /-- `self(v, a)` -/
  passed : List Char
deriving DecidableEq, Repr

/-- An impl of `FilterArgs`, such as

    impl<V, A> FilterArgs for (V, A)
    where
        V: FilterArg,
        A: FilterArg,
    {
        type Output<'a> = (V::Output<'a>, A::Output<'a>);

        fn from_state(state: FilterState<'_>) -> Result<Self::Output<'_>> {
            check_args(&state, 1)?;
            let err = |e| err_expected_val(e, state.source, state.filter.span);
            let v = V::from_cow_mut(state.value).map_err(err)?;
            let a = get_arg::<A>(state.source, state.stack, state.args, 0)?;
            Ok((v, a))
        }
    }
-/
structure ArgsImpl where
  /-- `for (V, A)` -/
  generics : List Char
  /-- `type Output<'a>` -/
  output : List Char
  /-- `check_args(&state, 1)` -/
  expects : Nat
  /-- `let v = V::from_cow_mut(state.value)` is `('v', 'V', none)`, `let a = get_arg::<A>(.., 0)` is `('a', 'A', some 0)` -/
  reads : List (Char × Char × Option Nat)
  /-- `Ok((v, a))` -/
  result : List Char
deriving DecidableEq, Repr

/-- The impls of `FilterArgs`, src/filters/mod.rs:268-361. -/
def argsImpls : List ArgsImpl := [
'''
def table(rows):
    return ',\n'.join(rows).replace('⟩ /-', '⟩ /-')
# the comment must come before the comma to stay with its row
text += table(args) + ']\n'
for k, g in enumerate(groups):
    text += f'\n/-- The impls of `Filter`, src/filters/mod.rs:179-262 and src/filters/impls.rs, part {k + 1}. -/\ndef filterImpls{k + 1} : List FilterImpl := [\n' + table(g) + ']\n'
text += '\n/-- All impls of `Filter`. -/\ndef filterImpls : List FilterImpl := ' + ' ++ '.join(f'filterImpls{k + 1}' for k in range(len(groups))) + '\n\nend Upon\n'
open(OUT, 'w').write(text)
print(len(filters), 'impls of Filter,', len(args), 'of FilterArgs')
