import Verif.Model.Filter
/-
The implementations of `Filter` and `FilterArgs`: src/filters/mod.rs:179-361 and src/filters/impls.rs.

Written by tools/gen_impls.py.
-/
namespace Upon

/-- A parameter of an impl: a type variable, or one of the borrowed types – `&str` (`Str`), `&[Value]` (`ListRef`), `&BTreeMap<String, Value>` (`MapRef`),
`&Value` (`ValueRef`); the correspondence of types and markers is that of `FilterArg::Output`, src/filters/args.rs:150, 200, 250, 294. -/
inductive Param where
  | generic (n : Char)
  | str | listRef | mapRef | valueRef
deriving DecidableEq, Repr

/-- An impl of `Filter`, such as

    impl<Func, R, A> Filter<R, (Str, A)> for Func
    where
        Func: Fn(&str, A) -> R,
        R: FilterReturn,
        A: for<'a> FilterArg<Output<'a> = A>,
        (Str, A): for<'a> FilterArgs<Output<'a> = (&'a str, A)>,
    {
        fn filter<'a>(&self, (v, a): (&'a str, A)) -> R {
            self(v, a)
        }
    }
-/
structure FilterImpl where
  /-- `impl<Func, R, A>`, without `Func` and `R` -/
  generics : List Char
  /-- `Filter<R, (Str, A)>` -/
  params : List Param
  /-- `Func: Fn(&str, A) -> R` -/
  func : List Param
  /-- `A: for<'a> FilterArg<Output<'a> = A>` -/
  owned : List Char
  /-- `FilterArgs<Output<'a> = (&'a str, A)>` -/
  output : List Param
  /-- `(v, a)`, the pattern of `fn filter` -/
  names : List Char
  /-- `(&'a str, A)`, the type of the pattern -/
  types : List Param
  /-- `self(v, a)` -/
  passed : List Char
deriving DecidableEq, Repr

/-- An impl of `FilterArgs`, such as

    impl<V, A> FilterArgs for (V, A)
    where
        V: FilterArg,
        A: FilterArg,
    {
        type Output<'a> = (V::Output<'a>, A::Output<'a>);

        fn from_state(state: FilterState<'_>) -> Result<Self::Output<'_>> {
            check_args(&state, 1)?;
            let err = |e| err_expected_val(e, state.source, state.filter.span);
            let v = V::from_cow_mut(state.value).map_err(err)?;
            let a = get_arg::<A>(state.source, state.stack, state.args, 0)?;
            Ok((v, a))
        }
    }
-/
structure ArgsImpl where
  /-- `for (V, A)` -/
  generics : List Char
  /-- `type Output<'a>` -/
  output : List Char
  /-- `check_args(&state, 1)` -/
  expects : Nat
  /-- `let v = V::from_cow_mut(state.value)` is `('v', 'V', none)`, `let a = get_arg::<A>(.., 0)` is `('a', 'A', some 0)` -/
  reads : List (Char × Char × Option Nat)
  /-- `Ok((v, a))` -/
  result : List Char
deriving DecidableEq, Repr

/-- The impls of `FilterArgs`, src/filters/mod.rs:268-361. -/
def argsImpls : List ArgsImpl := [
  ⟨['V'], ['V'], 0, [('v', 'V', none)], ['v']⟩ /- src/filters/mod.rs:268-280 -/,
  ⟨['V', 'A'], ['V', 'A'], 1, [('v', 'V', none), ('a', 'A', some 0)], ['v', 'a']⟩ /- src/filters/mod.rs:282-296 -/,
  ⟨['V', 'A', 'B'], ['V', 'A', 'B'], 2, [('v', 'V', none), ('a', 'A', some 0), ('b', 'B', some 1)], ['v', 'a', 'b']⟩ /- src/filters/mod.rs:298-314 -/,
  ⟨['V', 'A', 'B', 'C'], ['V', 'A', 'B', 'C'], 3, [('v', 'V', none), ('a', 'A', some 0), ('b', 'B', some 1), ('c', 'C', some 2)], ['v', 'a', 'b', 'c']⟩ /- src/filters/mod.rs:316-334 -/,
  ⟨['V', 'A', 'B', 'C', 'D'], ['V', 'A', 'B', 'C', 'D'], 4, [('v', 'V', none), ('a', 'A', some 0), ('b', 'B', some 1), ('c', 'C', some 2), ('d', 'D', some 3)], ['v', 'a', 'b', 'c', 'd']⟩ /- src/filters/mod.rs:336-362 -/]

/-- The impls of `Filter`, src/filters/mod.rs:179-262 and src/filters/impls.rs, part 1. -/
def filterImpls1 : List FilterImpl := [
  ⟨['V'], [.generic 'V'], [.generic 'V'], ['V'], [.generic 'V'], ['v'], [.generic 'V'], ['v']⟩ /- src/filters/mod.rs:179-192 -/,
  ⟨['V', 'A'], [.generic 'V', .generic 'A'], [.generic 'V', .generic 'A'], ['V', 'A'], [.generic 'V', .generic 'A'], ['v', 'a'], [.generic 'V', .generic 'A'], ['v', 'a']⟩ /- src/filters/mod.rs:194-208 -/,
  ⟨['V', 'A', 'B'], [.generic 'V', .generic 'A', .generic 'B'], [.generic 'V', .generic 'A', .generic 'B'], ['V', 'A', 'B'], [.generic 'V', .generic 'A', .generic 'B'], ['v', 'a', 'b'], [.generic 'V', .generic 'A', .generic 'B'], ['v', 'a', 'b']⟩ /- src/filters/mod.rs:210-225 -/,
  ⟨['V', 'A', 'B', 'C'], [.generic 'V', .generic 'A', .generic 'B', .generic 'C'], [.generic 'V', .generic 'A', .generic 'B', .generic 'C'], ['V', 'A', 'B', 'C'], [.generic 'V', .generic 'A', .generic 'B', .generic 'C'], ['v', 'a', 'b', 'c'], [.generic 'V', .generic 'A', .generic 'B', .generic 'C'], ['v', 'a', 'b', 'c']⟩ /- src/filters/mod.rs:227-243 -/,
  ⟨['V', 'A', 'B', 'C', 'D'], [.generic 'V', .generic 'A', .generic 'B', .generic 'C', .generic 'D'], [.generic 'V', .generic 'A', .generic 'B', .generic 'C', .generic 'D'], ['V', 'A', 'B', 'C', 'D'], [.generic 'V', .generic 'A', .generic 'B', .generic 'C', .generic 'D'], ['v', 'a', 'b', 'c', 'd'], [.generic 'V', .generic 'A', .generic 'B', .generic 'C', .generic 'D'], ['v', 'a', 'b', 'c', 'd']⟩ /- src/filters/mod.rs:245-262 -/,
  ⟨[], [.str], [.str], [], [.str], ['v'], [.str], ['v']⟩ /- src/filters/impls.rs:12-22 -/,
  ⟨[], [.listRef], [.listRef], [], [.listRef], ['v'], [.listRef], ['v']⟩ /- src/filters/impls.rs:25-35 -/,
  ⟨[], [.mapRef], [.mapRef], [], [.mapRef], ['v'], [.mapRef], ['v']⟩ /- src/filters/impls.rs:38-48 -/,
  ⟨[], [.valueRef], [.valueRef], [], [.valueRef], ['v'], [.valueRef], ['v']⟩ /- src/filters/impls.rs:51-61 -/,
  ⟨['V'], [.generic 'V', .str], [.generic 'V', .str], ['V'], [.generic 'V', .str], ['v', 'a'], [.generic 'V', .str], ['v', 'a']⟩ /- src/filters/impls.rs:64-76 -/,
  ⟨['A'], [.str, .generic 'A'], [.str, .generic 'A'], ['A'], [.str, .generic 'A'], ['v', 'a'], [.str, .generic 'A'], ['v', 'a']⟩ /- src/filters/impls.rs:79-91 -/,
  ⟨[], [.str, .str], [.str, .str], [], [.str, .str], ['v', 'a'], [.str, .str], ['v', 'a']⟩ /- src/filters/impls.rs:94-104 -/,
  ⟨['A'], [.listRef, .generic 'A'], [.listRef, .generic 'A'], ['A'], [.listRef, .generic 'A'], ['v', 'a'], [.listRef, .generic 'A'], ['v', 'a']⟩ /- src/filters/impls.rs:107-119 -/,
  ⟨[], [.listRef, .str], [.listRef, .str], [], [.listRef, .str], ['v', 'a'], [.listRef, .str], ['v', 'a']⟩ /- src/filters/impls.rs:122-132 -/,
  ⟨['A'], [.mapRef, .generic 'A'], [.mapRef, .generic 'A'], ['A'], [.mapRef, .generic 'A'], ['v', 'a'], [.mapRef, .generic 'A'], ['v', 'a']⟩ /- src/filters/impls.rs:135-147 -/,
  ⟨[], [.mapRef, .str], [.mapRef, .str], [], [.mapRef, .str], ['v', 'a'], [.mapRef, .str], ['v', 'a']⟩ /- src/filters/impls.rs:150-160 -/,
  ⟨['A'], [.valueRef, .generic 'A'], [.valueRef, .generic 'A'], ['A'], [.valueRef, .generic 'A'], ['v', 'a'], [.valueRef, .generic 'A'], ['v', 'a']⟩ /- src/filters/impls.rs:163-175 -/,
  ⟨[], [.valueRef, .str], [.valueRef, .str], [], [.valueRef, .str], ['v', 'a'], [.valueRef, .str], ['v', 'a']⟩ /- src/filters/impls.rs:178-188 -/,
  ⟨['V', 'A'], [.generic 'V', .generic 'A', .str], [.generic 'V', .generic 'A', .str], ['V', 'A'], [.generic 'V', .generic 'A', .str], ['v', 'a', 'b'], [.generic 'V', .generic 'A', .str], ['v', 'a', 'b']⟩ /- src/filters/impls.rs:191-204 -/,
  ⟨['V', 'B'], [.generic 'V', .str, .generic 'B'], [.generic 'V', .str, .generic 'B'], ['V', 'B'], [.generic 'V', .str, .generic 'B'], ['v', 'a', 'b'], [.generic 'V', .str, .generic 'B'], ['v', 'a', 'b']⟩ /- src/filters/impls.rs:207-220 -/,
  ⟨['V'], [.generic 'V', .str, .str], [.generic 'V', .str, .str], ['V'], [.generic 'V', .str, .str], ['v', 'a', 'b'], [.generic 'V', .str, .str], ['v', 'a', 'b']⟩ /- src/filters/impls.rs:223-235 -/,
  ⟨['A', 'B'], [.str, .generic 'A', .generic 'B'], [.str, .generic 'A', .generic 'B'], ['A', 'B'], [.str, .generic 'A', .generic 'B'], ['v', 'a', 'b'], [.str, .generic 'A', .generic 'B'], ['v', 'a', 'b']⟩ /- src/filters/impls.rs:238-251 -/,
  ⟨['A'], [.str, .generic 'A', .str], [.str, .generic 'A', .str], ['A'], [.str, .generic 'A', .str], ['v', 'a', 'b'], [.str, .generic 'A', .str], ['v', 'a', 'b']⟩ /- src/filters/impls.rs:254-266 -/,
  ⟨['B'], [.str, .str, .generic 'B'], [.str, .str, .generic 'B'], ['B'], [.str, .str, .generic 'B'], ['v', 'a', 'b'], [.str, .str, .generic 'B'], ['v', 'a', 'b']⟩ /- src/filters/impls.rs:269-281 -/,
  ⟨[], [.str, .str, .str], [.str, .str, .str], [], [.str, .str, .str], ['v', 'a', 'b'], [.str, .str, .str], ['v', 'a', 'b']⟩ /- src/filters/impls.rs:284-294 -/,
  ⟨['A', 'B'], [.listRef, .generic 'A', .generic 'B'], [.listRef, .generic 'A', .generic 'B'], ['A', 'B'], [.listRef, .generic 'A', .generic 'B'], ['v', 'a', 'b'], [.listRef, .generic 'A', .generic 'B'], ['v', 'a', 'b']⟩ /- src/filters/impls.rs:297-310 -/,
  ⟨['A'], [.listRef, .generic 'A', .str], [.listRef, .generic 'A', .str], ['A'], [.listRef, .generic 'A', .str], ['v', 'a', 'b'], [.listRef, .generic 'A', .str], ['v', 'a', 'b']⟩ /- src/filters/impls.rs:313-325 -/,
  ⟨['B'], [.listRef, .str, .generic 'B'], [.listRef, .str, .generic 'B'], ['B'], [.listRef, .str, .generic 'B'], ['v', 'a', 'b'], [.listRef, .str, .generic 'B'], ['v', 'a', 'b']⟩ /- src/filters/impls.rs:328-340 -/,
  ⟨[], [.listRef, .str, .str], [.listRef, .str, .str], [], [.listRef, .str, .str], ['v', 'a', 'b'], [.listRef, .str, .str], ['v', 'a', 'b']⟩ /- src/filters/impls.rs:343-353 -/,
  ⟨['A', 'B'], [.mapRef, .generic 'A', .generic 'B'], [.mapRef, .generic 'A', .generic 'B'], ['A', 'B'], [.mapRef, .generic 'A', .generic 'B'], ['v', 'a', 'b'], [.mapRef, .generic 'A', .generic 'B'], ['v', 'a', 'b']⟩ /- src/filters/impls.rs:356-369 -/,
  ⟨['A'], [.mapRef, .generic 'A', .str], [.mapRef, .generic 'A', .str], ['A'], [.mapRef, .generic 'A', .str], ['v', 'a', 'b'], [.mapRef, .generic 'A', .str], ['v', 'a', 'b']⟩ /- src/filters/impls.rs:372-384 -/,
  ⟨['B'], [.mapRef, .str, .generic 'B'], [.mapRef, .str, .generic 'B'], ['B'], [.mapRef, .str, .generic 'B'], ['v', 'a', 'b'], [.mapRef, .str, .generic 'B'], ['v', 'a', 'b']⟩ /- src/filters/impls.rs:387-399 -/,
  ⟨[], [.mapRef, .str, .str], [.mapRef, .str, .str], [], [.mapRef, .str, .str], ['v', 'a', 'b'], [.mapRef, .str, .str], ['v', 'a', 'b']⟩ /- src/filters/impls.rs:402-413 -/,
  ⟨['A', 'B'], [.valueRef, .generic 'A', .generic 'B'], [.valueRef, .generic 'A', .generic 'B'], ['A', 'B'], [.valueRef, .generic 'A', .generic 'B'], ['v', 'a', 'b'], [.valueRef, .generic 'A', .generic 'B'], ['v', 'a', 'b']⟩ /- src/filters/impls.rs:416-429 -/,
  ⟨['A'], [.valueRef, .generic 'A', .str], [.valueRef, .generic 'A', .str], ['A'], [.valueRef, .generic 'A', .str], ['v', 'a', 'b'], [.valueRef, .generic 'A', .str], ['v', 'a', 'b']⟩ /- src/filters/impls.rs:432-444 -/,
  ⟨['B'], [.valueRef, .str, .generic 'B'], [.valueRef, .str, .generic 'B'], ['B'], [.valueRef, .str, .generic 'B'], ['v', 'a', 'b'], [.valueRef, .str, .generic 'B'], ['v', 'a', 'b']⟩ /- src/filters/impls.rs:447-459 -/,
  ⟨[], [.valueRef, .str, .str], [.valueRef, .str, .str], [], [.valueRef, .str, .str], ['v', 'a', 'b'], [.valueRef, .str, .str], ['v', 'a', 'b']⟩ /- src/filters/impls.rs:462-472 -/,
  ⟨['V', 'A', 'B'], [.generic 'V', .generic 'A', .generic 'B', .str], [.generic 'V', .generic 'A', .generic 'B', .str], ['V', 'A', 'B'], [.generic 'V', .generic 'A', .generic 'B', .str], ['v', 'a', 'b', 'c'], [.generic 'V', .generic 'A', .generic 'B', .str], ['v', 'a', 'b', 'c']⟩ /- src/filters/impls.rs:475-489 -/,
  ⟨['V', 'A', 'C'], [.generic 'V', .generic 'A', .str, .generic 'C'], [.generic 'V', .generic 'A', .str, .generic 'C'], ['V', 'A', 'C'], [.generic 'V', .generic 'A', .str, .generic 'C'], ['v', 'a', 'b', 'c'], [.generic 'V', .generic 'A', .str, .generic 'C'], ['v', 'a', 'b', 'c']⟩ /- src/filters/impls.rs:492-506 -/,
  ⟨['V', 'A'], [.generic 'V', .generic 'A', .str, .str], [.generic 'V', .generic 'A', .str, .str], ['V', 'A'], [.generic 'V', .generic 'A', .str, .str], ['v', 'a', 'b', 'c'], [.generic 'V', .generic 'A', .str, .str], ['v', 'a', 'b', 'c']⟩ /- src/filters/impls.rs:509-522 -/]

/-- The impls of `Filter`, src/filters/mod.rs:179-262 and src/filters/impls.rs, part 2. -/
def filterImpls2 : List FilterImpl := [
  ⟨['V', 'B', 'C'], [.generic 'V', .str, .generic 'B', .generic 'C'], [.generic 'V', .str, .generic 'B', .generic 'C'], ['V', 'B', 'C'], [.generic 'V', .str, .generic 'B', .generic 'C'], ['v', 'a', 'b', 'c'], [.generic 'V', .str, .generic 'B', .generic 'C'], ['v', 'a', 'b', 'c']⟩ /- src/filters/impls.rs:525-539 -/,
  ⟨['V', 'B'], [.generic 'V', .str, .generic 'B', .str], [.generic 'V', .str, .generic 'B', .str], ['V', 'B'], [.generic 'V', .str, .generic 'B', .str], ['v', 'a', 'b', 'c'], [.generic 'V', .str, .generic 'B', .str], ['v', 'a', 'b', 'c']⟩ /- src/filters/impls.rs:542-555 -/,
  ⟨['V', 'C'], [.generic 'V', .str, .str, .generic 'C'], [.generic 'V', .str, .str, .generic 'C'], ['V', 'C'], [.generic 'V', .str, .str, .generic 'C'], ['v', 'a', 'b', 'c'], [.generic 'V', .str, .str, .generic 'C'], ['v', 'a', 'b', 'c']⟩ /- src/filters/impls.rs:558-571 -/,
  ⟨['V'], [.generic 'V', .str, .str, .str], [.generic 'V', .str, .str, .str], ['V'], [.generic 'V', .str, .str, .str], ['v', 'a', 'b', 'c'], [.generic 'V', .str, .str, .str], ['v', 'a', 'b', 'c']⟩ /- src/filters/impls.rs:574-586 -/,
  ⟨['A', 'B', 'C'], [.str, .generic 'A', .generic 'B', .generic 'C'], [.str, .generic 'A', .generic 'B', .generic 'C'], ['A', 'B', 'C'], [.str, .generic 'A', .generic 'B', .generic 'C'], ['v', 'a', 'b', 'c'], [.str, .generic 'A', .generic 'B', .generic 'C'], ['v', 'a', 'b', 'c']⟩ /- src/filters/impls.rs:589-603 -/,
  ⟨['A', 'B'], [.str, .generic 'A', .generic 'B', .str], [.str, .generic 'A', .generic 'B', .str], ['A', 'B'], [.str, .generic 'A', .generic 'B', .str], ['v', 'a', 'b', 'c'], [.str, .generic 'A', .generic 'B', .str], ['v', 'a', 'b', 'c']⟩ /- src/filters/impls.rs:606-619 -/,
  ⟨['A', 'C'], [.str, .generic 'A', .str, .generic 'C'], [.str, .generic 'A', .str, .generic 'C'], ['A', 'C'], [.str, .generic 'A', .str, .generic 'C'], ['v', 'a', 'b', 'c'], [.str, .generic 'A', .str, .generic 'C'], ['v', 'a', 'b', 'c']⟩ /- src/filters/impls.rs:622-635 -/,
  ⟨['A'], [.str, .generic 'A', .str, .str], [.str, .generic 'A', .str, .str], ['A'], [.str, .generic 'A', .str, .str], ['v', 'a', 'b', 'c'], [.str, .generic 'A', .str, .str], ['v', 'a', 'b', 'c']⟩ /- src/filters/impls.rs:638-650 -/,
  ⟨['B', 'C'], [.str, .str, .generic 'B', .generic 'C'], [.str, .str, .generic 'B', .generic 'C'], ['B', 'C'], [.str, .str, .generic 'B', .generic 'C'], ['v', 'a', 'b', 'c'], [.str, .str, .generic 'B', .generic 'C'], ['v', 'a', 'b', 'c']⟩ /- src/filters/impls.rs:653-666 -/,
  ⟨['B'], [.str, .str, .generic 'B', .str], [.str, .str, .generic 'B', .str], ['B'], [.str, .str, .generic 'B', .str], ['v', 'a', 'b', 'c'], [.str, .str, .generic 'B', .str], ['v', 'a', 'b', 'c']⟩ /- src/filters/impls.rs:669-681 -/,
  ⟨['C'], [.str, .str, .str, .generic 'C'], [.str, .str, .str, .generic 'C'], ['C'], [.str, .str, .str, .generic 'C'], ['v', 'a', 'b', 'c'], [.str, .str, .str, .generic 'C'], ['v', 'a', 'b', 'c']⟩ /- src/filters/impls.rs:684-696 -/,
  ⟨[], [.str, .str, .str, .str], [.str, .str, .str, .str], [], [.str, .str, .str, .str], ['v', 'a', 'b', 'c'], [.str, .str, .str, .str], ['v', 'a', 'b', 'c']⟩ /- src/filters/impls.rs:699-709 -/,
  ⟨['A', 'B', 'C'], [.listRef, .generic 'A', .generic 'B', .generic 'C'], [.listRef, .generic 'A', .generic 'B', .generic 'C'], ['A', 'B', 'C'], [.listRef, .generic 'A', .generic 'B', .generic 'C'], ['v', 'a', 'b', 'c'], [.listRef, .generic 'A', .generic 'B', .generic 'C'], ['v', 'a', 'b', 'c']⟩ /- src/filters/impls.rs:712-726 -/,
  ⟨['A', 'B'], [.listRef, .generic 'A', .generic 'B', .str], [.listRef, .generic 'A', .generic 'B', .str], ['A', 'B'], [.listRef, .generic 'A', .generic 'B', .str], ['v', 'a', 'b', 'c'], [.listRef, .generic 'A', .generic 'B', .str], ['v', 'a', 'b', 'c']⟩ /- src/filters/impls.rs:729-742 -/,
  ⟨['A', 'C'], [.listRef, .generic 'A', .str, .generic 'C'], [.listRef, .generic 'A', .str, .generic 'C'], ['A', 'C'], [.listRef, .generic 'A', .str, .generic 'C'], ['v', 'a', 'b', 'c'], [.listRef, .generic 'A', .str, .generic 'C'], ['v', 'a', 'b', 'c']⟩ /- src/filters/impls.rs:745-758 -/,
  ⟨['A'], [.listRef, .generic 'A', .str, .str], [.listRef, .generic 'A', .str, .str], ['A'], [.listRef, .generic 'A', .str, .str], ['v', 'a', 'b', 'c'], [.listRef, .generic 'A', .str, .str], ['v', 'a', 'b', 'c']⟩ /- src/filters/impls.rs:761-773 -/,
  ⟨['B', 'C'], [.listRef, .str, .generic 'B', .generic 'C'], [.listRef, .str, .generic 'B', .generic 'C'], ['B', 'C'], [.listRef, .str, .generic 'B', .generic 'C'], ['v', 'a', 'b', 'c'], [.listRef, .str, .generic 'B', .generic 'C'], ['v', 'a', 'b', 'c']⟩ /- src/filters/impls.rs:776-789 -/,
  ⟨['B'], [.listRef, .str, .generic 'B', .str], [.listRef, .str, .generic 'B', .str], ['B'], [.listRef, .str, .generic 'B', .str], ['v', 'a', 'b', 'c'], [.listRef, .str, .generic 'B', .str], ['v', 'a', 'b', 'c']⟩ /- src/filters/impls.rs:792-804 -/,
  ⟨['C'], [.listRef, .str, .str, .generic 'C'], [.listRef, .str, .str, .generic 'C'], ['C'], [.listRef, .str, .str, .generic 'C'], ['v', 'a', 'b', 'c'], [.listRef, .str, .str, .generic 'C'], ['v', 'a', 'b', 'c']⟩ /- src/filters/impls.rs:807-819 -/,
  ⟨[], [.listRef, .str, .str, .str], [.listRef, .str, .str, .str], [], [.listRef, .str, .str, .str], ['v', 'a', 'b', 'c'], [.listRef, .str, .str, .str], ['v', 'a', 'b', 'c']⟩ /- src/filters/impls.rs:822-833 -/,
  ⟨['A', 'B', 'C'], [.mapRef, .generic 'A', .generic 'B', .generic 'C'], [.mapRef, .generic 'A', .generic 'B', .generic 'C'], ['A', 'B', 'C'], [.mapRef, .generic 'A', .generic 'B', .generic 'C'], ['v', 'a', 'b', 'c'], [.mapRef, .generic 'A', .generic 'B', .generic 'C'], ['v', 'a', 'b', 'c']⟩ /- src/filters/impls.rs:836-850 -/,
  ⟨['A', 'B'], [.mapRef, .generic 'A', .generic 'B', .str], [.mapRef, .generic 'A', .generic 'B', .str], ['A', 'B'], [.mapRef, .generic 'A', .generic 'B', .str], ['v', 'a', 'b', 'c'], [.mapRef, .generic 'A', .generic 'B', .str], ['v', 'a', 'b', 'c']⟩ /- src/filters/impls.rs:853-867 -/,
  ⟨['A', 'C'], [.mapRef, .generic 'A', .str, .generic 'C'], [.mapRef, .generic 'A', .str, .generic 'C'], ['A', 'C'], [.mapRef, .generic 'A', .str, .generic 'C'], ['v', 'a', 'b', 'c'], [.mapRef, .generic 'A', .str, .generic 'C'], ['v', 'a', 'b', 'c']⟩ /- src/filters/impls.rs:870-884 -/,
  ⟨['A'], [.mapRef, .generic 'A', .str, .str], [.mapRef, .generic 'A', .str, .str], ['A'], [.mapRef, .generic 'A', .str, .str], ['v', 'a', 'b', 'c'], [.mapRef, .generic 'A', .str, .str], ['v', 'a', 'b', 'c']⟩ /- src/filters/impls.rs:887-900 -/,
  ⟨['B', 'C'], [.mapRef, .str, .generic 'B', .generic 'C'], [.mapRef, .str, .generic 'B', .generic 'C'], ['B', 'C'], [.mapRef, .str, .generic 'B', .generic 'C'], ['v', 'a', 'b', 'c'], [.mapRef, .str, .generic 'B', .generic 'C'], ['v', 'a', 'b', 'c']⟩ /- src/filters/impls.rs:903-917 -/,
  ⟨['B'], [.mapRef, .str, .generic 'B', .str], [.mapRef, .str, .generic 'B', .str], ['B'], [.mapRef, .str, .generic 'B', .str], ['v', 'a', 'b', 'c'], [.mapRef, .str, .generic 'B', .str], ['v', 'a', 'b', 'c']⟩ /- src/filters/impls.rs:920-933 -/,
  ⟨['C'], [.mapRef, .str, .str, .generic 'C'], [.mapRef, .str, .str, .generic 'C'], ['C'], [.mapRef, .str, .str, .generic 'C'], ['v', 'a', 'b', 'c'], [.mapRef, .str, .str, .generic 'C'], ['v', 'a', 'b', 'c']⟩ /- src/filters/impls.rs:936-949 -/,
  ⟨[], [.mapRef, .str, .str, .str], [.mapRef, .str, .str, .str], [], [.mapRef, .str, .str, .str], ['v', 'a', 'b', 'c'], [.mapRef, .str, .str, .str], ['v', 'a', 'b', 'c']⟩ /- src/filters/impls.rs:952-966 -/,
  ⟨['A', 'B', 'C'], [.valueRef, .generic 'A', .generic 'B', .generic 'C'], [.valueRef, .generic 'A', .generic 'B', .generic 'C'], ['A', 'B', 'C'], [.valueRef, .generic 'A', .generic 'B', .generic 'C'], ['v', 'a', 'b', 'c'], [.valueRef, .generic 'A', .generic 'B', .generic 'C'], ['v', 'a', 'b', 'c']⟩ /- src/filters/impls.rs:969-983 -/,
  ⟨['A', 'B'], [.valueRef, .generic 'A', .generic 'B', .str], [.valueRef, .generic 'A', .generic 'B', .str], ['A', 'B'], [.valueRef, .generic 'A', .generic 'B', .str], ['v', 'a', 'b', 'c'], [.valueRef, .generic 'A', .generic 'B', .str], ['v', 'a', 'b', 'c']⟩ /- src/filters/impls.rs:986-999 -/,
  ⟨['A', 'C'], [.valueRef, .generic 'A', .str, .generic 'C'], [.valueRef, .generic 'A', .str, .generic 'C'], ['A', 'C'], [.valueRef, .generic 'A', .str, .generic 'C'], ['v', 'a', 'b', 'c'], [.valueRef, .generic 'A', .str, .generic 'C'], ['v', 'a', 'b', 'c']⟩ /- src/filters/impls.rs:1002-1015 -/,
  ⟨['A'], [.valueRef, .generic 'A', .str, .str], [.valueRef, .generic 'A', .str, .str], ['A'], [.valueRef, .generic 'A', .str, .str], ['v', 'a', 'b', 'c'], [.valueRef, .generic 'A', .str, .str], ['v', 'a', 'b', 'c']⟩ /- src/filters/impls.rs:1018-1030 -/,
  ⟨['B', 'C'], [.valueRef, .str, .generic 'B', .generic 'C'], [.valueRef, .str, .generic 'B', .generic 'C'], ['B', 'C'], [.valueRef, .str, .generic 'B', .generic 'C'], ['v', 'a', 'b', 'c'], [.valueRef, .str, .generic 'B', .generic 'C'], ['v', 'a', 'b', 'c']⟩ /- src/filters/impls.rs:1033-1046 -/,
  ⟨['B'], [.valueRef, .str, .generic 'B', .str], [.valueRef, .str, .generic 'B', .str], ['B'], [.valueRef, .str, .generic 'B', .str], ['v', 'a', 'b', 'c'], [.valueRef, .str, .generic 'B', .str], ['v', 'a', 'b', 'c']⟩ /- src/filters/impls.rs:1049-1061 -/,
  ⟨['C'], [.valueRef, .str, .str, .generic 'C'], [.valueRef, .str, .str, .generic 'C'], ['C'], [.valueRef, .str, .str, .generic 'C'], ['v', 'a', 'b', 'c'], [.valueRef, .str, .str, .generic 'C'], ['v', 'a', 'b', 'c']⟩ /- src/filters/impls.rs:1064-1076 -/,
  ⟨[], [.valueRef, .str, .str, .str], [.valueRef, .str, .str, .str], [], [.valueRef, .str, .str, .str], ['v', 'a', 'b', 'c'], [.valueRef, .str, .str, .str], ['v', 'a', 'b', 'c']⟩ /- src/filters/impls.rs:1079-1090 -/,
  ⟨['V', 'A', 'B', 'C'], [.generic 'V', .generic 'A', .generic 'B', .generic 'C', .str], [.generic 'V', .generic 'A', .generic 'B', .generic 'C', .str], ['V', 'A', 'B', 'C'], [.generic 'V', .generic 'A', .generic 'B', .generic 'C', .str], ['v', 'a', 'b', 'c', 'd'], [.generic 'V', .generic 'A', .generic 'B', .generic 'C', .str], ['v', 'a', 'b', 'c', 'd']⟩ /- src/filters/impls.rs:1093-1108 -/,
  ⟨['V', 'A', 'B', 'D'], [.generic 'V', .generic 'A', .generic 'B', .str, .generic 'D'], [.generic 'V', .generic 'A', .generic 'B', .str, .generic 'D'], ['V', 'A', 'B', 'D'], [.generic 'V', .generic 'A', .generic 'B', .str, .generic 'D'], ['v', 'a', 'b', 'c', 'd'], [.generic 'V', .generic 'A', .generic 'B', .str, .generic 'D'], ['v', 'a', 'b', 'c', 'd']⟩ /- src/filters/impls.rs:1111-1126 -/,
  ⟨['V', 'A', 'B'], [.generic 'V', .generic 'A', .generic 'B', .str, .str], [.generic 'V', .generic 'A', .generic 'B', .str, .str], ['V', 'A', 'B'], [.generic 'V', .generic 'A', .generic 'B', .str, .str], ['v', 'a', 'b', 'c', 'd'], [.generic 'V', .generic 'A', .generic 'B', .str, .str], ['v', 'a', 'b', 'c', 'd']⟩ /- src/filters/impls.rs:1129-1143 -/,
  ⟨['V', 'A', 'C', 'D'], [.generic 'V', .generic 'A', .str, .generic 'C', .generic 'D'], [.generic 'V', .generic 'A', .str, .generic 'C', .generic 'D'], ['V', 'A', 'C', 'D'], [.generic 'V', .generic 'A', .str, .generic 'C', .generic 'D'], ['v', 'a', 'b', 'c', 'd'], [.generic 'V', .generic 'A', .str, .generic 'C', .generic 'D'], ['v', 'a', 'b', 'c', 'd']⟩ /- src/filters/impls.rs:1146-1161 -/]

/-- The impls of `Filter`, src/filters/mod.rs:179-262 and src/filters/impls.rs, part 3. -/
def filterImpls3 : List FilterImpl := [
  ⟨['V', 'A', 'C'], [.generic 'V', .generic 'A', .str, .generic 'C', .str], [.generic 'V', .generic 'A', .str, .generic 'C', .str], ['V', 'A', 'C'], [.generic 'V', .generic 'A', .str, .generic 'C', .str], ['v', 'a', 'b', 'c', 'd'], [.generic 'V', .generic 'A', .str, .generic 'C', .str], ['v', 'a', 'b', 'c', 'd']⟩ /- src/filters/impls.rs:1164-1178 -/,
  ⟨['V', 'A', 'D'], [.generic 'V', .generic 'A', .str, .str, .generic 'D'], [.generic 'V', .generic 'A', .str, .str, .generic 'D'], ['V', 'A', 'D'], [.generic 'V', .generic 'A', .str, .str, .generic 'D'], ['v', 'a', 'b', 'c', 'd'], [.generic 'V', .generic 'A', .str, .str, .generic 'D'], ['v', 'a', 'b', 'c', 'd']⟩ /- src/filters/impls.rs:1181-1195 -/,
  ⟨['V', 'A'], [.generic 'V', .generic 'A', .str, .str, .str], [.generic 'V', .generic 'A', .str, .str, .str], ['V', 'A'], [.generic 'V', .generic 'A', .str, .str, .str], ['v', 'a', 'b', 'c', 'd'], [.generic 'V', .generic 'A', .str, .str, .str], ['v', 'a', 'b', 'c', 'd']⟩ /- src/filters/impls.rs:1198-1211 -/,
  ⟨['V', 'B', 'C', 'D'], [.generic 'V', .str, .generic 'B', .generic 'C', .generic 'D'], [.generic 'V', .str, .generic 'B', .generic 'C', .generic 'D'], ['V', 'B', 'C', 'D'], [.generic 'V', .str, .generic 'B', .generic 'C', .generic 'D'], ['v', 'a', 'b', 'c', 'd'], [.generic 'V', .str, .generic 'B', .generic 'C', .generic 'D'], ['v', 'a', 'b', 'c', 'd']⟩ /- src/filters/impls.rs:1214-1229 -/,
  ⟨['V', 'B', 'C'], [.generic 'V', .str, .generic 'B', .generic 'C', .str], [.generic 'V', .str, .generic 'B', .generic 'C', .str], ['V', 'B', 'C'], [.generic 'V', .str, .generic 'B', .generic 'C', .str], ['v', 'a', 'b', 'c', 'd'], [.generic 'V', .str, .generic 'B', .generic 'C', .str], ['v', 'a', 'b', 'c', 'd']⟩ /- src/filters/impls.rs:1232-1246 -/,
  ⟨['V', 'B', 'D'], [.generic 'V', .str, .generic 'B', .str, .generic 'D'], [.generic 'V', .str, .generic 'B', .str, .generic 'D'], ['V', 'B', 'D'], [.generic 'V', .str, .generic 'B', .str, .generic 'D'], ['v', 'a', 'b', 'c', 'd'], [.generic 'V', .str, .generic 'B', .str, .generic 'D'], ['v', 'a', 'b', 'c', 'd']⟩ /- src/filters/impls.rs:1249-1263 -/,
  ⟨['V', 'B'], [.generic 'V', .str, .generic 'B', .str, .str], [.generic 'V', .str, .generic 'B', .str, .str], ['V', 'B'], [.generic 'V', .str, .generic 'B', .str, .str], ['v', 'a', 'b', 'c', 'd'], [.generic 'V', .str, .generic 'B', .str, .str], ['v', 'a', 'b', 'c', 'd']⟩ /- src/filters/impls.rs:1266-1279 -/,
  ⟨['V', 'C', 'D'], [.generic 'V', .str, .str, .generic 'C', .generic 'D'], [.generic 'V', .str, .str, .generic 'C', .generic 'D'], ['V', 'C', 'D'], [.generic 'V', .str, .str, .generic 'C', .generic 'D'], ['v', 'a', 'b', 'c', 'd'], [.generic 'V', .str, .str, .generic 'C', .generic 'D'], ['v', 'a', 'b', 'c', 'd']⟩ /- src/filters/impls.rs:1282-1296 -/,
  ⟨['V', 'C'], [.generic 'V', .str, .str, .generic 'C', .str], [.generic 'V', .str, .str, .generic 'C', .str], ['V', 'C'], [.generic 'V', .str, .str, .generic 'C', .str], ['v', 'a', 'b', 'c', 'd'], [.generic 'V', .str, .str, .generic 'C', .str], ['v', 'a', 'b', 'c', 'd']⟩ /- src/filters/impls.rs:1299-1312 -/,
  ⟨['V', 'D'], [.generic 'V', .str, .str, .str, .generic 'D'], [.generic 'V', .str, .str, .str, .generic 'D'], ['V', 'D'], [.generic 'V', .str, .str, .str, .generic 'D'], ['v', 'a', 'b', 'c', 'd'], [.generic 'V', .str, .str, .str, .generic 'D'], ['v', 'a', 'b', 'c', 'd']⟩ /- src/filters/impls.rs:1315-1328 -/,
  ⟨['V'], [.generic 'V', .str, .str, .str, .str], [.generic 'V', .str, .str, .str, .str], ['V'], [.generic 'V', .str, .str, .str, .str], ['v', 'a', 'b', 'c', 'd'], [.generic 'V', .str, .str, .str, .str], ['v', 'a', 'b', 'c', 'd']⟩ /- src/filters/impls.rs:1331-1344 -/,
  ⟨['A', 'B', 'C', 'D'], [.str, .generic 'A', .generic 'B', .generic 'C', .generic 'D'], [.str, .generic 'A', .generic 'B', .generic 'C', .generic 'D'], ['A', 'B', 'C', 'D'], [.str, .generic 'A', .generic 'B', .generic 'C', .generic 'D'], ['v', 'a', 'b', 'c', 'd'], [.str, .generic 'A', .generic 'B', .generic 'C', .generic 'D'], ['v', 'a', 'b', 'c', 'd']⟩ /- src/filters/impls.rs:1347-1362 -/,
  ⟨['A', 'B', 'C'], [.str, .generic 'A', .generic 'B', .generic 'C', .str], [.str, .generic 'A', .generic 'B', .generic 'C', .str], ['A', 'B', 'C'], [.str, .generic 'A', .generic 'B', .generic 'C', .str], ['v', 'a', 'b', 'c', 'd'], [.str, .generic 'A', .generic 'B', .generic 'C', .str], ['v', 'a', 'b', 'c', 'd']⟩ /- src/filters/impls.rs:1365-1379 -/,
  ⟨['A', 'B', 'D'], [.str, .generic 'A', .generic 'B', .str, .generic 'D'], [.str, .generic 'A', .generic 'B', .str, .generic 'D'], ['A', 'B', 'D'], [.str, .generic 'A', .generic 'B', .str, .generic 'D'], ['v', 'a', 'b', 'c', 'd'], [.str, .generic 'A', .generic 'B', .str, .generic 'D'], ['v', 'a', 'b', 'c', 'd']⟩ /- src/filters/impls.rs:1382-1396 -/,
  ⟨['A', 'B'], [.str, .generic 'A', .generic 'B', .str, .str], [.str, .generic 'A', .generic 'B', .str, .str], ['A', 'B'], [.str, .generic 'A', .generic 'B', .str, .str], ['v', 'a', 'b', 'c', 'd'], [.str, .generic 'A', .generic 'B', .str, .str], ['v', 'a', 'b', 'c', 'd']⟩ /- src/filters/impls.rs:1399-1412 -/,
  ⟨['A', 'C', 'D'], [.str, .generic 'A', .str, .generic 'C', .generic 'D'], [.str, .generic 'A', .str, .generic 'C', .generic 'D'], ['A', 'C', 'D'], [.str, .generic 'A', .str, .generic 'C', .generic 'D'], ['v', 'a', 'b', 'c', 'd'], [.str, .generic 'A', .str, .generic 'C', .generic 'D'], ['v', 'a', 'b', 'c', 'd']⟩ /- src/filters/impls.rs:1415-1429 -/,
  ⟨['A', 'C'], [.str, .generic 'A', .str, .generic 'C', .str], [.str, .generic 'A', .str, .generic 'C', .str], ['A', 'C'], [.str, .generic 'A', .str, .generic 'C', .str], ['v', 'a', 'b', 'c', 'd'], [.str, .generic 'A', .str, .generic 'C', .str], ['v', 'a', 'b', 'c', 'd']⟩ /- src/filters/impls.rs:1432-1445 -/,
  ⟨['A', 'D'], [.str, .generic 'A', .str, .str, .generic 'D'], [.str, .generic 'A', .str, .str, .generic 'D'], ['A', 'D'], [.str, .generic 'A', .str, .str, .generic 'D'], ['v', 'a', 'b', 'c', 'd'], [.str, .generic 'A', .str, .str, .generic 'D'], ['v', 'a', 'b', 'c', 'd']⟩ /- src/filters/impls.rs:1448-1461 -/,
  ⟨['A'], [.str, .generic 'A', .str, .str, .str], [.str, .generic 'A', .str, .str, .str], ['A'], [.str, .generic 'A', .str, .str, .str], ['v', 'a', 'b', 'c', 'd'], [.str, .generic 'A', .str, .str, .str], ['v', 'a', 'b', 'c', 'd']⟩ /- src/filters/impls.rs:1464-1477 -/,
  ⟨['B', 'C', 'D'], [.str, .str, .generic 'B', .generic 'C', .generic 'D'], [.str, .str, .generic 'B', .generic 'C', .generic 'D'], ['B', 'C', 'D'], [.str, .str, .generic 'B', .generic 'C', .generic 'D'], ['v', 'a', 'b', 'c', 'd'], [.str, .str, .generic 'B', .generic 'C', .generic 'D'], ['v', 'a', 'b', 'c', 'd']⟩ /- src/filters/impls.rs:1480-1494 -/,
  ⟨['B', 'C'], [.str, .str, .generic 'B', .generic 'C', .str], [.str, .str, .generic 'B', .generic 'C', .str], ['B', 'C'], [.str, .str, .generic 'B', .generic 'C', .str], ['v', 'a', 'b', 'c', 'd'], [.str, .str, .generic 'B', .generic 'C', .str], ['v', 'a', 'b', 'c', 'd']⟩ /- src/filters/impls.rs:1497-1510 -/,
  ⟨['B', 'D'], [.str, .str, .generic 'B', .str, .generic 'D'], [.str, .str, .generic 'B', .str, .generic 'D'], ['B', 'D'], [.str, .str, .generic 'B', .str, .generic 'D'], ['v', 'a', 'b', 'c', 'd'], [.str, .str, .generic 'B', .str, .generic 'D'], ['v', 'a', 'b', 'c', 'd']⟩ /- src/filters/impls.rs:1513-1526 -/,
  ⟨['B'], [.str, .str, .generic 'B', .str, .str], [.str, .str, .generic 'B', .str, .str], ['B'], [.str, .str, .generic 'B', .str, .str], ['v', 'a', 'b', 'c', 'd'], [.str, .str, .generic 'B', .str, .str], ['v', 'a', 'b', 'c', 'd']⟩ /- src/filters/impls.rs:1529-1542 -/,
  ⟨['C', 'D'], [.str, .str, .str, .generic 'C', .generic 'D'], [.str, .str, .str, .generic 'C', .generic 'D'], ['C', 'D'], [.str, .str, .str, .generic 'C', .generic 'D'], ['v', 'a', 'b', 'c', 'd'], [.str, .str, .str, .generic 'C', .generic 'D'], ['v', 'a', 'b', 'c', 'd']⟩ /- src/filters/impls.rs:1545-1558 -/,
  ⟨['C'], [.str, .str, .str, .generic 'C', .str], [.str, .str, .str, .generic 'C', .str], ['C'], [.str, .str, .str, .generic 'C', .str], ['v', 'a', 'b', 'c', 'd'], [.str, .str, .str, .generic 'C', .str], ['v', 'a', 'b', 'c', 'd']⟩ /- src/filters/impls.rs:1561-1574 -/,
  ⟨['D'], [.str, .str, .str, .str, .generic 'D'], [.str, .str, .str, .str, .generic 'D'], ['D'], [.str, .str, .str, .str, .generic 'D'], ['v', 'a', 'b', 'c', 'd'], [.str, .str, .str, .str, .generic 'D'], ['v', 'a', 'b', 'c', 'd']⟩ /- src/filters/impls.rs:1577-1590 -/,
  ⟨[], [.str, .str, .str, .str, .str], [.str, .str, .str, .str, .str], [], [.str, .str, .str, .str, .str], ['v', 'a', 'b', 'c', 'd'], [.str, .str, .str, .str, .str], ['v', 'a', 'b', 'c', 'd']⟩ /- src/filters/impls.rs:1593-1604 -/,
  ⟨['A', 'B', 'C', 'D'], [.listRef, .generic 'A', .generic 'B', .generic 'C', .generic 'D'], [.listRef, .generic 'A', .generic 'B', .generic 'C', .generic 'D'], ['A', 'B', 'C', 'D'], [.listRef, .generic 'A', .generic 'B', .generic 'C', .generic 'D'], ['v', 'a', 'b', 'c', 'd'], [.listRef, .generic 'A', .generic 'B', .generic 'C', .generic 'D'], ['v', 'a', 'b', 'c', 'd']⟩ /- src/filters/impls.rs:1607-1622 -/,
  ⟨['A', 'B', 'C'], [.listRef, .generic 'A', .generic 'B', .generic 'C', .str], [.listRef, .generic 'A', .generic 'B', .generic 'C', .str], ['A', 'B', 'C'], [.listRef, .generic 'A', .generic 'B', .generic 'C', .str], ['v', 'a', 'b', 'c', 'd'], [.listRef, .generic 'A', .generic 'B', .generic 'C', .str], ['v', 'a', 'b', 'c', 'd']⟩ /- src/filters/impls.rs:1625-1639 -/,
  ⟨['A', 'B', 'D'], [.listRef, .generic 'A', .generic 'B', .str, .generic 'D'], [.listRef, .generic 'A', .generic 'B', .str, .generic 'D'], ['A', 'B', 'D'], [.listRef, .generic 'A', .generic 'B', .str, .generic 'D'], ['v', 'a', 'b', 'c', 'd'], [.listRef, .generic 'A', .generic 'B', .str, .generic 'D'], ['v', 'a', 'b', 'c', 'd']⟩ /- src/filters/impls.rs:1642-1656 -/,
  ⟨['A', 'B'], [.listRef, .generic 'A', .generic 'B', .str, .str], [.listRef, .generic 'A', .generic 'B', .str, .str], ['A', 'B'], [.listRef, .generic 'A', .generic 'B', .str, .str], ['v', 'a', 'b', 'c', 'd'], [.listRef, .generic 'A', .generic 'B', .str, .str], ['v', 'a', 'b', 'c', 'd']⟩ /- src/filters/impls.rs:1659-1673 -/,
  ⟨['A', 'C', 'D'], [.listRef, .generic 'A', .str, .generic 'C', .generic 'D'], [.listRef, .generic 'A', .str, .generic 'C', .generic 'D'], ['A', 'C', 'D'], [.listRef, .generic 'A', .str, .generic 'C', .generic 'D'], ['v', 'a', 'b', 'c', 'd'], [.listRef, .generic 'A', .str, .generic 'C', .generic 'D'], ['v', 'a', 'b', 'c', 'd']⟩ /- src/filters/impls.rs:1676-1690 -/,
  ⟨['A', 'C'], [.listRef, .generic 'A', .str, .generic 'C', .str], [.listRef, .generic 'A', .str, .generic 'C', .str], ['A', 'C'], [.listRef, .generic 'A', .str, .generic 'C', .str], ['v', 'a', 'b', 'c', 'd'], [.listRef, .generic 'A', .str, .generic 'C', .str], ['v', 'a', 'b', 'c', 'd']⟩ /- src/filters/impls.rs:1693-1707 -/,
  ⟨['A', 'D'], [.listRef, .generic 'A', .str, .str, .generic 'D'], [.listRef, .generic 'A', .str, .str, .generic 'D'], ['A', 'D'], [.listRef, .generic 'A', .str, .str, .generic 'D'], ['v', 'a', 'b', 'c', 'd'], [.listRef, .generic 'A', .str, .str, .generic 'D'], ['v', 'a', 'b', 'c', 'd']⟩ /- src/filters/impls.rs:1710-1724 -/,
  ⟨['A'], [.listRef, .generic 'A', .str, .str, .str], [.listRef, .generic 'A', .str, .str, .str], ['A'], [.listRef, .generic 'A', .str, .str, .str], ['v', 'a', 'b', 'c', 'd'], [.listRef, .generic 'A', .str, .str, .str], ['v', 'a', 'b', 'c', 'd']⟩ /- src/filters/impls.rs:1727-1740 -/,
  ⟨['B', 'C', 'D'], [.listRef, .str, .generic 'B', .generic 'C', .generic 'D'], [.listRef, .str, .generic 'B', .generic 'C', .generic 'D'], ['B', 'C', 'D'], [.listRef, .str, .generic 'B', .generic 'C', .generic 'D'], ['v', 'a', 'b', 'c', 'd'], [.listRef, .str, .generic 'B', .generic 'C', .generic 'D'], ['v', 'a', 'b', 'c', 'd']⟩ /- src/filters/impls.rs:1743-1757 -/,
  ⟨['B', 'C'], [.listRef, .str, .generic 'B', .generic 'C', .str], [.listRef, .str, .generic 'B', .generic 'C', .str], ['B', 'C'], [.listRef, .str, .generic 'B', .generic 'C', .str], ['v', 'a', 'b', 'c', 'd'], [.listRef, .str, .generic 'B', .generic 'C', .str], ['v', 'a', 'b', 'c', 'd']⟩ /- src/filters/impls.rs:1760-1774 -/,
  ⟨['B', 'D'], [.listRef, .str, .generic 'B', .str, .generic 'D'], [.listRef, .str, .generic 'B', .str, .generic 'D'], ['B', 'D'], [.listRef, .str, .generic 'B', .str, .generic 'D'], ['v', 'a', 'b', 'c', 'd'], [.listRef, .str, .generic 'B', .str, .generic 'D'], ['v', 'a', 'b', 'c', 'd']⟩ /- src/filters/impls.rs:1777-1791 -/,
  ⟨['B'], [.listRef, .str, .generic 'B', .str, .str], [.listRef, .str, .generic 'B', .str, .str], ['B'], [.listRef, .str, .generic 'B', .str, .str], ['v', 'a', 'b', 'c', 'd'], [.listRef, .str, .generic 'B', .str, .str], ['v', 'a', 'b', 'c', 'd']⟩ /- src/filters/impls.rs:1794-1807 -/,
  ⟨['C', 'D'], [.listRef, .str, .str, .generic 'C', .generic 'D'], [.listRef, .str, .str, .generic 'C', .generic 'D'], ['C', 'D'], [.listRef, .str, .str, .generic 'C', .generic 'D'], ['v', 'a', 'b', 'c', 'd'], [.listRef, .str, .str, .generic 'C', .generic 'D'], ['v', 'a', 'b', 'c', 'd']⟩ /- src/filters/impls.rs:1810-1824 -/]

/-- The impls of `Filter`, src/filters/mod.rs:179-262 and src/filters/impls.rs, part 4. -/
def filterImpls4 : List FilterImpl := [
  ⟨['C'], [.listRef, .str, .str, .generic 'C', .str], [.listRef, .str, .str, .generic 'C', .str], ['C'], [.listRef, .str, .str, .generic 'C', .str], ['v', 'a', 'b', 'c', 'd'], [.listRef, .str, .str, .generic 'C', .str], ['v', 'a', 'b', 'c', 'd']⟩ /- src/filters/impls.rs:1827-1840 -/,
  ⟨['D'], [.listRef, .str, .str, .str, .generic 'D'], [.listRef, .str, .str, .str, .generic 'D'], ['D'], [.listRef, .str, .str, .str, .generic 'D'], ['v', 'a', 'b', 'c', 'd'], [.listRef, .str, .str, .str, .generic 'D'], ['v', 'a', 'b', 'c', 'd']⟩ /- src/filters/impls.rs:1843-1856 -/,
  ⟨[], [.listRef, .str, .str, .str, .str], [.listRef, .str, .str, .str, .str], [], [.listRef, .str, .str, .str, .str], ['v', 'a', 'b', 'c', 'd'], [.listRef, .str, .str, .str, .str], ['v', 'a', 'b', 'c', 'd']⟩ /- src/filters/impls.rs:1859-1870 -/,
  ⟨['A', 'B', 'C', 'D'], [.mapRef, .generic 'A', .generic 'B', .generic 'C', .generic 'D'], [.mapRef, .generic 'A', .generic 'B', .generic 'C', .generic 'D'], ['A', 'B', 'C', 'D'], [.mapRef, .generic 'A', .generic 'B', .generic 'C', .generic 'D'], ['v', 'a', 'b', 'c', 'd'], [.mapRef, .generic 'A', .generic 'B', .generic 'C', .generic 'D'], ['v', 'a', 'b', 'c', 'd']⟩ /- src/filters/impls.rs:1873-1889 -/,
  ⟨['A', 'B', 'C'], [.mapRef, .generic 'A', .generic 'B', .generic 'C', .str], [.mapRef, .generic 'A', .generic 'B', .generic 'C', .str], ['A', 'B', 'C'], [.mapRef, .generic 'A', .generic 'B', .generic 'C', .str], ['v', 'a', 'b', 'c', 'd'], [.mapRef, .generic 'A', .generic 'B', .generic 'C', .str], ['v', 'a', 'b', 'c', 'd']⟩ /- src/filters/impls.rs:1892-1907 -/,
  ⟨['A', 'B', 'D'], [.mapRef, .generic 'A', .generic 'B', .str, .generic 'D'], [.mapRef, .generic 'A', .generic 'B', .str, .generic 'D'], ['A', 'B', 'D'], [.mapRef, .generic 'A', .generic 'B', .str, .generic 'D'], ['v', 'a', 'b', 'c', 'd'], [.mapRef, .generic 'A', .generic 'B', .str, .generic 'D'], ['v', 'a', 'b', 'c', 'd']⟩ /- src/filters/impls.rs:1910-1925 -/,
  ⟨['A', 'B'], [.mapRef, .generic 'A', .generic 'B', .str, .str], [.mapRef, .generic 'A', .generic 'B', .str, .str], ['A', 'B'], [.mapRef, .generic 'A', .generic 'B', .str, .str], ['v', 'a', 'b', 'c', 'd'], [.mapRef, .generic 'A', .generic 'B', .str, .str], ['v', 'a', 'b', 'c', 'd']⟩ /- src/filters/impls.rs:1928-1945 -/,
  ⟨['A', 'C', 'D'], [.mapRef, .generic 'A', .str, .generic 'C', .generic 'D'], [.mapRef, .generic 'A', .str, .generic 'C', .generic 'D'], ['A', 'C', 'D'], [.mapRef, .generic 'A', .str, .generic 'C', .generic 'D'], ['v', 'a', 'b', 'c', 'd'], [.mapRef, .generic 'A', .str, .generic 'C', .generic 'D'], ['v', 'a', 'b', 'c', 'd']⟩ /- src/filters/impls.rs:1948-1963 -/,
  ⟨['A', 'C'], [.mapRef, .generic 'A', .str, .generic 'C', .str], [.mapRef, .generic 'A', .str, .generic 'C', .str], ['A', 'C'], [.mapRef, .generic 'A', .str, .generic 'C', .str], ['v', 'a', 'b', 'c', 'd'], [.mapRef, .generic 'A', .str, .generic 'C', .str], ['v', 'a', 'b', 'c', 'd']⟩ /- src/filters/impls.rs:1966-1983 -/,
  ⟨['A', 'D'], [.mapRef, .generic 'A', .str, .str, .generic 'D'], [.mapRef, .generic 'A', .str, .str, .generic 'D'], ['A', 'D'], [.mapRef, .generic 'A', .str, .str, .generic 'D'], ['v', 'a', 'b', 'c', 'd'], [.mapRef, .generic 'A', .str, .str, .generic 'D'], ['v', 'a', 'b', 'c', 'd']⟩ /- src/filters/impls.rs:1986-2003 -/,
  ⟨['A'], [.mapRef, .generic 'A', .str, .str, .str], [.mapRef, .generic 'A', .str, .str, .str], ['A'], [.mapRef, .generic 'A', .str, .str, .str], ['v', 'a', 'b', 'c', 'd'], [.mapRef, .generic 'A', .str, .str, .str], ['v', 'a', 'b', 'c', 'd']⟩ /- src/filters/impls.rs:2006-2023 -/,
  ⟨['B', 'C', 'D'], [.mapRef, .str, .generic 'B', .generic 'C', .generic 'D'], [.mapRef, .str, .generic 'B', .generic 'C', .generic 'D'], ['B', 'C', 'D'], [.mapRef, .str, .generic 'B', .generic 'C', .generic 'D'], ['v', 'a', 'b', 'c', 'd'], [.mapRef, .str, .generic 'B', .generic 'C', .generic 'D'], ['v', 'a', 'b', 'c', 'd']⟩ /- src/filters/impls.rs:2026-2041 -/,
  ⟨['B', 'C'], [.mapRef, .str, .generic 'B', .generic 'C', .str], [.mapRef, .str, .generic 'B', .generic 'C', .str], ['B', 'C'], [.mapRef, .str, .generic 'B', .generic 'C', .str], ['v', 'a', 'b', 'c', 'd'], [.mapRef, .str, .generic 'B', .generic 'C', .str], ['v', 'a', 'b', 'c', 'd']⟩ /- src/filters/impls.rs:2044-2061 -/,
  ⟨['B', 'D'], [.mapRef, .str, .generic 'B', .str, .generic 'D'], [.mapRef, .str, .generic 'B', .str, .generic 'D'], ['B', 'D'], [.mapRef, .str, .generic 'B', .str, .generic 'D'], ['v', 'a', 'b', 'c', 'd'], [.mapRef, .str, .generic 'B', .str, .generic 'D'], ['v', 'a', 'b', 'c', 'd']⟩ /- src/filters/impls.rs:2064-2081 -/,
  ⟨['B'], [.mapRef, .str, .generic 'B', .str, .str], [.mapRef, .str, .generic 'B', .str, .str], ['B'], [.mapRef, .str, .generic 'B', .str, .str], ['v', 'a', 'b', 'c', 'd'], [.mapRef, .str, .generic 'B', .str, .str], ['v', 'a', 'b', 'c', 'd']⟩ /- src/filters/impls.rs:2084-2101 -/,
  ⟨['C', 'D'], [.mapRef, .str, .str, .generic 'C', .generic 'D'], [.mapRef, .str, .str, .generic 'C', .generic 'D'], ['C', 'D'], [.mapRef, .str, .str, .generic 'C', .generic 'D'], ['v', 'a', 'b', 'c', 'd'], [.mapRef, .str, .str, .generic 'C', .generic 'D'], ['v', 'a', 'b', 'c', 'd']⟩ /- src/filters/impls.rs:2104-2121 -/,
  ⟨['C'], [.mapRef, .str, .str, .generic 'C', .str], [.mapRef, .str, .str, .generic 'C', .str], ['C'], [.mapRef, .str, .str, .generic 'C', .str], ['v', 'a', 'b', 'c', 'd'], [.mapRef, .str, .str, .generic 'C', .str], ['v', 'a', 'b', 'c', 'd']⟩ /- src/filters/impls.rs:2124-2141 -/,
  ⟨['D'], [.mapRef, .str, .str, .str, .generic 'D'], [.mapRef, .str, .str, .str, .generic 'D'], ['D'], [.mapRef, .str, .str, .str, .generic 'D'], ['v', 'a', 'b', 'c', 'd'], [.mapRef, .str, .str, .str, .generic 'D'], ['v', 'a', 'b', 'c', 'd']⟩ /- src/filters/impls.rs:2144-2161 -/,
  ⟨[], [.mapRef, .str, .str, .str, .str], [.mapRef, .str, .str, .str, .str], [], [.mapRef, .str, .str, .str, .str], ['v', 'a', 'b', 'c', 'd'], [.mapRef, .str, .str, .str, .str], ['v', 'a', 'b', 'c', 'd']⟩ /- src/filters/impls.rs:2164-2191 -/,
  ⟨['A', 'B', 'C', 'D'], [.valueRef, .generic 'A', .generic 'B', .generic 'C', .generic 'D'], [.valueRef, .generic 'A', .generic 'B', .generic 'C', .generic 'D'], ['A', 'B', 'C', 'D'], [.valueRef, .generic 'A', .generic 'B', .generic 'C', .generic 'D'], ['v', 'a', 'b', 'c', 'd'], [.valueRef, .generic 'A', .generic 'B', .generic 'C', .generic 'D'], ['v', 'a', 'b', 'c', 'd']⟩ /- src/filters/impls.rs:2194-2209 -/,
  ⟨['A', 'B', 'C'], [.valueRef, .generic 'A', .generic 'B', .generic 'C', .str], [.valueRef, .generic 'A', .generic 'B', .generic 'C', .str], ['A', 'B', 'C'], [.valueRef, .generic 'A', .generic 'B', .generic 'C', .str], ['v', 'a', 'b', 'c', 'd'], [.valueRef, .generic 'A', .generic 'B', .generic 'C', .str], ['v', 'a', 'b', 'c', 'd']⟩ /- src/filters/impls.rs:2212-2226 -/,
  ⟨['A', 'B', 'D'], [.valueRef, .generic 'A', .generic 'B', .str, .generic 'D'], [.valueRef, .generic 'A', .generic 'B', .str, .generic 'D'], ['A', 'B', 'D'], [.valueRef, .generic 'A', .generic 'B', .str, .generic 'D'], ['v', 'a', 'b', 'c', 'd'], [.valueRef, .generic 'A', .generic 'B', .str, .generic 'D'], ['v', 'a', 'b', 'c', 'd']⟩ /- src/filters/impls.rs:2229-2243 -/,
  ⟨['A', 'B'], [.valueRef, .generic 'A', .generic 'B', .str, .str], [.valueRef, .generic 'A', .generic 'B', .str, .str], ['A', 'B'], [.valueRef, .generic 'A', .generic 'B', .str, .str], ['v', 'a', 'b', 'c', 'd'], [.valueRef, .generic 'A', .generic 'B', .str, .str], ['v', 'a', 'b', 'c', 'd']⟩ /- src/filters/impls.rs:2246-2260 -/,
  ⟨['A', 'C', 'D'], [.valueRef, .generic 'A', .str, .generic 'C', .generic 'D'], [.valueRef, .generic 'A', .str, .generic 'C', .generic 'D'], ['A', 'C', 'D'], [.valueRef, .generic 'A', .str, .generic 'C', .generic 'D'], ['v', 'a', 'b', 'c', 'd'], [.valueRef, .generic 'A', .str, .generic 'C', .generic 'D'], ['v', 'a', 'b', 'c', 'd']⟩ /- src/filters/impls.rs:2263-2277 -/,
  ⟨['A', 'C'], [.valueRef, .generic 'A', .str, .generic 'C', .str], [.valueRef, .generic 'A', .str, .generic 'C', .str], ['A', 'C'], [.valueRef, .generic 'A', .str, .generic 'C', .str], ['v', 'a', 'b', 'c', 'd'], [.valueRef, .generic 'A', .str, .generic 'C', .str], ['v', 'a', 'b', 'c', 'd']⟩ /- src/filters/impls.rs:2280-2294 -/,
  ⟨['A', 'D'], [.valueRef, .generic 'A', .str, .str, .generic 'D'], [.valueRef, .generic 'A', .str, .str, .generic 'D'], ['A', 'D'], [.valueRef, .generic 'A', .str, .str, .generic 'D'], ['v', 'a', 'b', 'c', 'd'], [.valueRef, .generic 'A', .str, .str, .generic 'D'], ['v', 'a', 'b', 'c', 'd']⟩ /- src/filters/impls.rs:2297-2311 -/,
  ⟨['A'], [.valueRef, .generic 'A', .str, .str, .str], [.valueRef, .generic 'A', .str, .str, .str], ['A'], [.valueRef, .generic 'A', .str, .str, .str], ['v', 'a', 'b', 'c', 'd'], [.valueRef, .generic 'A', .str, .str, .str], ['v', 'a', 'b', 'c', 'd']⟩ /- src/filters/impls.rs:2314-2327 -/,
  ⟨['B', 'C', 'D'], [.valueRef, .str, .generic 'B', .generic 'C', .generic 'D'], [.valueRef, .str, .generic 'B', .generic 'C', .generic 'D'], ['B', 'C', 'D'], [.valueRef, .str, .generic 'B', .generic 'C', .generic 'D'], ['v', 'a', 'b', 'c', 'd'], [.valueRef, .str, .generic 'B', .generic 'C', .generic 'D'], ['v', 'a', 'b', 'c', 'd']⟩ /- src/filters/impls.rs:2330-2344 -/,
  ⟨['B', 'C'], [.valueRef, .str, .generic 'B', .generic 'C', .str], [.valueRef, .str, .generic 'B', .generic 'C', .str], ['B', 'C'], [.valueRef, .str, .generic 'B', .generic 'C', .str], ['v', 'a', 'b', 'c', 'd'], [.valueRef, .str, .generic 'B', .generic 'C', .str], ['v', 'a', 'b', 'c', 'd']⟩ /- src/filters/impls.rs:2347-2361 -/,
  ⟨['B', 'D'], [.valueRef, .str, .generic 'B', .str, .generic 'D'], [.valueRef, .str, .generic 'B', .str, .generic 'D'], ['B', 'D'], [.valueRef, .str, .generic 'B', .str, .generic 'D'], ['v', 'a', 'b', 'c', 'd'], [.valueRef, .str, .generic 'B', .str, .generic 'D'], ['v', 'a', 'b', 'c', 'd']⟩ /- src/filters/impls.rs:2364-2378 -/,
  ⟨['B'], [.valueRef, .str, .generic 'B', .str, .str], [.valueRef, .str, .generic 'B', .str, .str], ['B'], [.valueRef, .str, .generic 'B', .str, .str], ['v', 'a', 'b', 'c', 'd'], [.valueRef, .str, .generic 'B', .str, .str], ['v', 'a', 'b', 'c', 'd']⟩ /- src/filters/impls.rs:2381-2394 -/,
  ⟨['C', 'D'], [.valueRef, .str, .str, .generic 'C', .generic 'D'], [.valueRef, .str, .str, .generic 'C', .generic 'D'], ['C', 'D'], [.valueRef, .str, .str, .generic 'C', .generic 'D'], ['v', 'a', 'b', 'c', 'd'], [.valueRef, .str, .str, .generic 'C', .generic 'D'], ['v', 'a', 'b', 'c', 'd']⟩ /- src/filters/impls.rs:2397-2411 -/,
  ⟨['C'], [.valueRef, .str, .str, .generic 'C', .str], [.valueRef, .str, .str, .generic 'C', .str], ['C'], [.valueRef, .str, .str, .generic 'C', .str], ['v', 'a', 'b', 'c', 'd'], [.valueRef, .str, .str, .generic 'C', .str], ['v', 'a', 'b', 'c', 'd']⟩ /- src/filters/impls.rs:2414-2427 -/,
  ⟨['D'], [.valueRef, .str, .str, .str, .generic 'D'], [.valueRef, .str, .str, .str, .generic 'D'], ['D'], [.valueRef, .str, .str, .str, .generic 'D'], ['v', 'a', 'b', 'c', 'd'], [.valueRef, .str, .str, .str, .generic 'D'], ['v', 'a', 'b', 'c', 'd']⟩ /- src/filters/impls.rs:2430-2443 -/,
  ⟨[], [.valueRef, .str, .str, .str, .str], [.valueRef, .str, .str, .str, .str], [], [.valueRef, .str, .str, .str, .str], ['v', 'a', 'b', 'c', 'd'], [.valueRef, .str, .str, .str, .str], ['v', 'a', 'b', 'c', 'd']⟩ /- src/filters/impls.rs:2446-2457 -/]

/-- All impls of `Filter`. -/
def filterImpls : List FilterImpl := filterImpls1 ++ filterImpls2 ++ filterImpls3 ++ filterImpls4

end Upon
