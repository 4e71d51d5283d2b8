# A Lean 4 model of isi-vista/vistautils

The Python package at `/repo` is modelled by hand, function by function, in Lean 4
(`lean/Verif`). Nothing in `/repo` was built or run. Every property of
`properties.jsonl` is stated as a theorem about that model.

## Layout

| directory | content |
|---|---|
| `lean/Verif/Model/*.lean` | the executable model; every definition cites file and lines of `/repo` |
| `lean/Verif/Spec/*.lean` | small specifications that do not use the model's helpers |
| `lean/Verif/Proofs/*.lean` | helper lemmas |
| `lean/Verif/Props/*.lean` | the property theorems, each with a non-vacuity `example` |
| `seeded/LOG.jsonl` | results of editing the model the way a bug would and rebuilding |
| `tools/` | `props.py` is the single source of `properties.jsonl`, `MANIFEST.json` and the table below |

## Trusted base

* Lean 4.33.0's kernel, and the axioms `propext`, `Classical.choice`, `Quot.sound`
  (at most; every property theorem is checked with `#print axioms`). No axioms of our own,
  no compiled-evaluation tactics.
* The reading of the Python code by hand: the theorems are about the model.
* Python semantics used by the model without proof:
  * `list`, `tuple`, `sorted` (stable merge sort), slices, `itertools.islice/chain`,
    `collections.deque(maxlen)`, `str.split/join/strip/splitlines`;
  * `dict`/`immutabledict`/`ImmutableSet` behave like association lists / duplicate-free lists in
    insertion order, keyed by `==` (hash consistency trusted, except where a property is about hashing);
  * `sortedcontainers.SortedDict` behaves like a key-sorted association list, with
    `bisect_left(k)` the number of keys `< k`, `bisect(k)` the number of keys `<= k`,
    `irange` the keys between two bounds in order, and `SortedDict(pairs)` repeated insertion;
  * `attrs` generated `__init__`/`__eq__`/`__hash__`; `zipfile`/`tarfile` archives as lists of named entries
    where the last entry of a name wins; `yaml` parse/print as the identity on plain trees;
  * endpoints of ranges are drawn from a type whose `<`, `<=`, `==` form a linear order
    (NaN, and equal numbers that are different objects, are modelled in `Model/NumRange`, C107, where only range sets with a NaN endpoint are left out; values of types that cannot be compared are modelled in `Model/MixedRange`, C105); Python ints are `Int`, and `str` is `List Char`.
  * `attrs` 19.2 as used by `attrutils` (C89): merging of keyword arguments, the check of the attribute order,
    converters before validators, validators after all assignments; `kw_only`, `factory=` and more than two
    positional arguments are left out;
  * `pickle`/`copy.deepcopy` (C88): every object not defining `__reduce__` is rebuilt as a new instance, shared
    references stay shared (one new instance per constant and copy), `SortedDict(pairs)` asks `next < previous`
    first, and bisection is modelled by a linear scan (so which comparison is the first to raise is a model choice;
    that one raises is not);
  * generators and iterators (C40, C85, C87): a generator runs to its next `yield` per request and is finished after
    its end or an exception; an iterator given to `windowed`/`drop` is the sequence of outcomes of its `__next__`;
  * the file system (C55-C79) is a tree of directories and files without links, permissions or concurrent writers;
    `open`, `mkdir`, `rename`-free writes and buffering behave as in `Model/FileSystem.lean`; `gzip`, `tarfile`,
    `yaml`, `argparse`, `logging.config.fileConfig`, `random.shuffle` are parameters with the laws stated as
    hypotheses of the theorems that use them.
  * killed processes (C91-C93): a process can stop between any two system calls; completed calls persist (no power
    loss); of a file being written a beginning of what the program wrote is there (buffering); `mkdir(parents=True)`
    makes directories from the outermost in, `rmtree` removes entries in any order, a directory after its entries;
    a zip file being written (C96) is a list of blocks (entries, directory, end record, junk): the directory is found through
    an end record at the very end that points to it; a block written over others may leave any rest of them behind it; end
    records left over from an earlier session never fit (each new directory is longer, as a session writes at least the
    keys entry at the place of the old directory); byte sequences in stored data that look like an end record are ignored;
    entering a sink object that is already entered is not modelled;
  * `==` of `immutabledict` is that of `dict`, its `hash` that of the frozen set of its items (C100; `immutablecollections`
    is not in `/repo`); `hash` of a built-in value is any function of the value that gives equal numbers equal hashes;
  * failing calls (C112): `mkdir`, `open` or `write` raises `OSError` after any part of its work; only in calls of `put` on
    directory sinks;
  * concurrent processes (C94): system calls are atomic and sequentially consistent; `Path.mkdir` and `Path.touch` are
    the sequences of system calls of CPython's `pathlib`; `rmtree` is taken as one step (counterexample only).
* Exceptions are values (`Except Exc α`), identified by class, without message text. Making the messages of the type checks (of a parameter, of an evaluated or made object) is modelled as far as it can raise (`raising`: the text of a namespace, C47, C53, C74), with `yaml.dump` taken to accept whatever `_preprocess_dicts` gives; every other message is taken to be formatted without an exception (so `str`/`repr` of the objects in it does not raise).

## Not modelled

Command-line glue (`argparse`, `sys.exit` text), logging output text, docstrings, `repr` (except of ranges, spans and string sources), type-checker
stubs, real file descriptors, strings with lone surrogates (except as texts written, C111), and encodings (a char sink is the text written; where bytes matter, UTF-8 is
the concrete encoding of Lean's core library, see `Model/Bytes`), gzip/tar binary formats, threads (the code has none),
`eval`/`importlib` internals (abstract parameter), performance.

## Conventions

* `Res α = Except Exc α`; a raising Python function returns `.error`.
* A mutating method returns the new state; where aliasing matters (range-set builders, iterators) an explicit heap or
  iterator state is used.
* Python truthiness is modelled explicitly wherever the code relies on it.
* If the code disagrees with a property, the property's clause that fails is proved false of the model by a concrete
  counterexample theorem (`..._counterexample`), the rest is proved, and the disagreement is listed under Findings.

## Properties: what is modelled and how it is proved

<!-- BEGIN PROPERTY TABLE -->
* **C01 Range factories contain exactly the documented values** — Model the four cut classes and compare_to branch by branch over any LinearOrder; prove compare_to is the comparison of a linear order; membership by cases.
* **C02 Range.encloses is a partial order that implies containment** — Algebra on the cut order; density case via DenseOrder/NoMinOrder/NoMaxOrder.
* **C03 is_connected means a common enclosed range exists** — Witness = [max lower, min upper]; case analysis of the comparison results.
* **C04 intersection is the greatest common sub-range, defined iff connected** — Model the three branches; compare to max/min of cuts.
* **C05 span / create_spanning give the least enclosing range** — Model branches; fold of min/max.
* **C06 Range equality, hashing, emptiness, bounds and descriptions are consistent** — Hash is modelled with an arbitrary endpoint hash function.
* **C07 Ranges are convex** — Order argument.
* **C08 Range sets stay in normal form under every history** — SortedDict modelled as a key-sorted association list with bisect/irange/del/setitem; invariant by induction over op lists.
* **C09 Range-set membership is exactly the union of what was added** — Refinement to the predicate union.
* **C10 add yields the minimal normal-form set; insertion order is irrelevant** — Leastness proved per add step, then by induction; uniqueness by antisymmetry.
* **C11 encloses / encloses_all / range_enclosing_range are exact** — Floor-entry lookup correct under the normal-form invariant.
* **C12 range_containing returns the unique member containing the value** — Same lookup lemma.
* **C13 RangeSet.intersects means a non-empty common sub-range** — Ceiling/lower entry argument.
* **C14 ranges_overlapping returns exactly the members connected to the query, in order** — bisect bounds vs filter on sorted list.
* **C15 ranges_enclosed_by returns exactly the enclosed members, in order** — Contiguity of the enclosed block.
* **C16 rightmost_containing_or_below** — Last element of the filtered sorted list.
* **C17 leftmost_containing_or_above** — find? on the sorted list.
* **C18 RangeSet.span is the least range enclosing everything added** — First lower, last upper; leastness via C10.
* **C19 The state of a range set rebuilds it; equality is extensional** — SortedDict(list) modelled by repeated setitem; identity on sorted lists.
* **C20 Built immutable range sets are snapshots** — Heap model with mutable dict cells and copy; frame argument.
* **C21 ImmutableRangeMap accepts exactly disconnected non-empty keys** — Counting argument: each add grows the set by at most one, with equality iff disconnected from all and non-empty.
* **C22 ImmutableRangeMap lookup is exact** — range_set members = keys when accepted.
* **C23 ImmutableRangeMap navigation returns values of the right key ranges** — From C15-C17 and C21.
* **C24 Span predicates mean what they say about offsets** — Integer arithmetic against offset sets.
* **C25 intersection and clip_to give exactly the common offsets** — Reuse the Range model.
* **C26 shift translates offsets and composes** — Integer arithmetic.
* **C27 minimal_enclosing_span is the least enclosing span** — Fold min/max; iterator state modelled explicitly.
* **C28 HasSpanIndex.index answers span queries exactly** — Set multi-dict modelled as grouped association list.
* **C29 index_disjoint accepts exactly non-overlapping spans and answers queries exactly** — Via C21-C23 for closed integer ranges.
* **C30 Annotated text preserves the text** — Output modelled as a list of text/tag pieces; erasure theorem.
* **C31 Annotated text is well nested** — Stack-machine acceptance; false for two annotations with the same span, so proved for distinct spans plus a counterexample.
* **C32 Each tag is placed at its offset** — Prefix lengths of emitted text.
* **C33 Annotation order does not matter** — Stable sort with injective key is permutation invariant.
* **C34 windowed without partial windows yields all complete windows in order** — Deque with maxlen modelled; induction.
* **C35 windowed with partial windows yields one window per element** — Same plus the drain loop.
* **C36 drop skips exactly n elements and leaves the rest** — islice model.
* **C37 only / get_only return the element iff there is exactly one** — Iterator model with consumption count.
* **C38 Small helpers: non_none, flatten_once_to_list, strip_extension, str_list_limited** — List functions.
* **C39 topological_sort output is a linear extension** — Kahn's algorithm as a state machine with an invariant.
* **C40 topological_sort raises iff the graph has a cycle** — Termination measure; leftover nodes all have a leftover predecessor, hence a cycle.
* **C41 Parameter lookup follows the dotted path** — Tree model; str.split modelled; composition lemma.
* **C42 from_mapping and as_nested_dicts are inverse** — Mutual induction on trees.
* **C43 namespaced_items enumerates exactly the leaves under their full names** — Induction; join/split inverse.
* **C44 from_key_value_pairs rebuilds what namespaced_items lists** — Fold of path insertion.
* **C45 unify is a right-biased merge** — Recursive merge; null values behave specially (C46).
* **C46 A null value in new_params never overrides** — Consequence of `in` treating None as absent.
* **C47 Typed accessors never return a value of the wrong type or range** — Dynamic values as a sum type; isinstance table (bool is an int).
* **C48 Optional accessors return the parameter, the default, or None** — Per-accessor theorem; falsy float default is a counterexample.
* **C49 assert_exactly_one_present** — filter length.
* **C50 Interpolation replaces every placeholder by the final value of the parameter it names** — Model regex matching, graph building, ordering and in-place substitution on shared mutable dicts; loop invariant along the topological order; result read back through the store. Counterexamples: order dependence, wrong prefix of a namespace taken from the context.
* **C51 Cyclic interpolation is reported; interpolation succeeds exactly when there is a correct result** — Via C40; completeness by running the loop against a given correct result. Counterexamples: falsy values count as missing, self-containing namespace.
* **C52 Loading: included files are merged with later files taking precedence** — Loader as a recursive function over an abstract file system and YAML parser; the files are listed by an inductive relation, the result by layers; refinement by induction on the recursion depth, idempotence of re-unifying already included parameters.
* **C53 object_from_parameters only returns objects of the expected type, chosen by the documented priority** — Decision logic with an abstract interpreter; success characterised by iff.
* **C54 Zip store round trip** — Archive as append-only entry list; refinement to a map.
* **C55 Sessions accumulate** — State machine over sessions.
* **C56 Rejected puts change nothing** — Step lemma.
* **C57 The key listing round-trips** — join/split inverse.
* **C58 Key-value sources agree with themselves** — Generic source model.
* **C59 Interpreted sources are value maps** — Functor laws.
* **C60 Tar sources expose exactly the selected regular files** — filterMap.
* **C61 DocID-to-file maps round-trip** — Line/field split inverses.
* **C62 Directory sinks round-trip through their index** — File system as a map; C61.
* **C63 Even splitting partitions the store** — Round-robin counting.
* **C64 Joining the slices restores the store; duplicates are rejected** — Fold over inputs.
* **C65 Explicit split copies exactly the requested keys** — Model loop.
* **C66 Downsampling keeps a sub-store of the right size** — Permutation + take.
* **C67 MemoryAmount.parse reads what starts with an amount and rejects everything else** — Regex match model over ASCII digits; trailing junk is accepted (counterexample).
* **C68 Checkpoints behave like a set of names** — Directory as set of file names.
* **C69 Sinks and sources: last write wins, reads return the content** — State machine; line splitting.
* **C70 Preconditions raise exactly when violated** — Dynamic value model with truthiness; check_opt_isinstance accepts wrong-typed falsy values (counterexample).
* **C71 Script helpers compute the documented names and texts** — String functions; .tar.gz yields a double dot (counterexample).
* **C72 Module context for evaluation** — Fold over prefixes.
* **C73 Directory and file parameters leave the file system as documented** — Tree file-system model.
* **C74 Sources and sinks built from parameters are those the parameters describe** — Factory selection logic; file-map yields an always-empty source (counterexample).
* **C75 earliest_then_longest_first_key sorts containers before what they contain** — Sortedness of the stable sort under the key.
* **C76 sub_namespaces lists the namespaces directly below** — Via C47; hashing modelled.
* **C77 evaluate evaluates exactly the documented expression in the documented context** — Import loop as a fold; refinement to a lookup function.
* **C78 Written parameters are the nested dicts with paths as text, and can be loaded again** — Induction over values; a file without placeholders is its own interpolation (C50, C51), C52 and C45 for the loader.
* **C79 Lists and maps of paths, and pickled objects, are read from the file a parameter names** — Relational specification of line breaks; induction over lines.
* **C80 String and path helpers** — String functions; the last dot as a decomposition of the name.
* **C81 configure_logging_from sets the level asked for** — State of the root logger; lookup theorems of C47.
* **C82 directory_to_key_value_store copies every file below the directory, once** — Sink from C74; invariant of the copy loop; stem as a decomposition at the last dot.
* **C83 The entry point runs the program once, with the parameters of the file overridden by those of the command line** — Composition of C52, C44, C45 and C81.
* **C84 tar_gz_to_zip copies exactly the requested members** — Fold over the members; tree file-system model; extraction invariant.
* **C85 A tar source gives every member once, in order, and only while it is open** — State machine of open files and generators; invariant over histories.
* **C86 Annotated text can be read back** — An independent reader as a state machine over characters; induction over properly nested markup.
* **C87 windowed, drop, non_none, only and get_only are lazy on any iterator, however it is used** — Generators as state machines; invariant over the trace of any schedule.
* **C88 Only bounded ranges survive pickling** — Cuts with instance numbers; the operations with errors proved equal to the main model for instance 0; case analysis on the first unbounded key.
* **C89 Attributes declared with attrutils are what their declarations promise** — Model of the used part of attrs; induction over the attributes and over the history.
* **C90 The fully-qualified name of a class evaluates to the class** — Laws of dotted names as hypotheses on the interpreter (with an interpreter satisfying them); induction over packages on top of C77.
* **C91 Checkpoints survive programs that are killed** — Programs with the set of states in which they can be killed; an invariant by induction over the history.
* **C92 What a killed directory sink leaves** — Programs with the set of states in which they can be killed; induction over the calls on top of the session invariant of C62.
* **C93 What a killed write to a file leaves** — Programs with the set of states in which they can be killed; case analysis over the crash points on top of the file system model.
* **C94 Processes can share a checkpoint directory** — Programs as trees of system calls; rely-guarantee (the file system only grows) and an invariant over all interleavings; a measure for termination.
* **C95 A program writes the same through every character sink** — Bodies as interaction trees; induction over the derivation that a body only writes.
* **C96 What a killed zip sink leaves** — The file as a list of blocks written one after the other; the set of contents at the kill points; an invariant by induction over the history on top of the session theorem of C55.
* **C97 The life of a zip sink and of a zip source** — Refinement of an abstract machine with three phases, by induction over the history.
* **C98 Directory sinks, whatever is done with them** — Refinement of a deterministic abstract machine, by induction over the history; the consequences from the machine.
* **C99 Parameters do not share dictionaries with the program** — Refinement of the value model by a heap model: induction over what a value shows, and for the pairs a loop invariant with the (injective) positions of the dictionaries made.
* **C100 Equality and hash of Parameters** — == and hash of the attrs class as structural recursions on values; induction on values; == of the dictionary inside as for dict, hash as for the frozen set of its items.
* **C101 The scripts on key-value stores, from their parameters** — Composition of the models of the parameters, the sources and the scripts; the sources are asked in the current state of the file system.
* **C102 Killed scripts on stores lose nothing, and can be run again** — Programs with the set of states in which they can be killed; a program logic for what a program touches, killed or not; an invariant by induction over the killed runs.
* **C103 Killed conversions lose nothing of their input, and can be run again** — Programs with the set of states in which they can be killed; an invariant of the states left by killed runs; the next run from any such state equals a first run.
* **C104 Lists in parameters are passed on as they are** — Lists as opaque objects; every function commutes with replacing each object by what it holds, by induction over values.
* **C105 Values that cannot be compared** — The range code again with every comparison in the order in which it is made, and state returned also when it raises; simulation of the model of C08 on comparable values; induction over the history.
* **C106 Zip sinks with any key functions** — The sink object with the file followed through each call, key functions as arbitrary functions that give the entries they add and an outcome; an invariant over the list of calls and their outcomes.
* **C107 Ranges of Python numbers: equal numbers that are different objects, and NaN** — The code of ranges, range sets and range maps once more over objects that stand for an optional number; a simulation relation to the model over a linear order (C01 to C23), and NaN by itself.
* **C108 Number parameters that are NaN or infinite** — The accessors with the lookup of C47 and the ranges of C107; a float object stands for a number with infinities or for none.
* **C109 Directory sinks with keys that are paths** — The directory sinks and document maps of C62 on the file system model, with the paths of keys resolved by the pathlib model.
* **C110 Parameters, dictionaries and lists that all may change** — The heap of dictionaries of C99 with list objects as leaves; what a value looks like at a moment is an inductive relation through both. C99 and C104 are combined by a parametricity argument: which lists are in the outcome is decided by how the arguments look.
* **C111 Text that UTF-8 cannot encode** — Strings over the characters and the 2048 surrogates. Directory sessions are compared with a sink in which the failing calls put nothing (C109); zip sessions are runs of the machine of C97.
* **C112 Directory sinks when the operating system fails** — Each call has a fault, which says where it fails; an invariant over the session says which files and directories there can be (by the keys of all calls), and what is in the files.
<!-- END PROPERTY TABLE -->

## Findings: where the code disagrees with its documentation or a reasonable reading

1. `Range.intersects` is the same relation as `is_connected` (True for ranges that only touch), so
   `ranges_overlapping(r)` can be non-empty while `RangeSet.intersects(r)` is False.
2. `RangeSet.__hash__` hashes a fresh `SortedValuesView`; equal range sets and maps can hash differently.
3. `remove`/`remove_all` on mutable range sets raise `NotImplementedError`.
4. `Span.minimal_enclosing_span` on a one-shot iterator always raises `ValueError`.
5. `index_disjoint(...).get_containing` is wrong if items on distinct spans compare equal.
6. `annotated_text("", ...)` raises; trailing text is cut with document-relative offsets; annotations with identical
   spans produce crossing tags.
7. `only()` documents `LookupError` but raises `ValueError`.
8. `Parameters.unify`: a `None` in the new parameters never overrides; unifying a non-top-level namespace
   leaves inconsistent `namespace_prefix`es.
9. `optional_floating_point(default=0.0)`/`optional_positive_integer(default=0)` ignore the default (falsy);
   a null parameter is not `in` the parameters but `get(name, default=...)` raises `ParameterError`.
10. `_extend_prefix` splits the new element into characters.
11. `object_from_parameters`: a string in `special_factories` calls the default factory.
12. `byte_key_value_source_from_params` uses the char default; type `file-map` yields an always-empty source.
13. `_explicit_split` reads `must_be_exhaustive` from the top level.
14. Interpolation: falsy own values are skipped in favour of the context; `ns: {x: "%ns%"}` is an undetected cycle.
15. `YAMLParametersWriter` raises on `None` values.
16. Zip sink: key `__keys` is overwritten; the single key `""` is lost; keys with newlines break the listing; a
    non-injective filename function silently loses values; a key is listed even if its value was rejected;
    stale keys when a sink is re-entered.
17. Directory sink: key `_index` is overwritten by the index.
18. `MemoryAmount.parse` accepts trailing junk.
19. `tar_gz_to_zip._output_name("x.tar.gz") == "x..zip"`.
20. `check_opt_isinstance` accepts wrong-typed falsy values; `attrutils.non_empty` never rejects.
21. `parameters_only_entrypoint` with explicit parameters raises `AttributeError`.
22. `Checkpoints`: `set("")` then `"" in` is False.
23. `readlines` strips line endings although documented not to.
24. `random.shuffle(x, random=...)` no longer exists in Python 3.11 (downsample script).
25. `text_at_offsets` prints even when the offsets are out of bounds.
26. Unbounded ranges do not survive `pickle` or `copy.deepcopy`: the constants `_BELOW_ALL`/`_ABOVE_ALL` are recognised by identity but define no `__reduce__`, so an unpickled `Range.at_least(5)` differs from the original and claims an upper bound without an endpoint; range sets with two or more ranges, one of them unbounded below, and most range maps with an unbounded key cannot be unpickled at all (C88).
27. The fully-qualified name of a nested class cannot be used where a name is evaluated (`a.b.Outer.Inner` makes `evaluate` import `a.b.Outer`), nor that of a class whose top-level package is called like a local variable of `evaluate` (`name`, `context`, `namespace`, `default`, `self`, …) unless a context is given (C90).
28. Killed processes: a `reset_all` that is killed can remove some checkpoints and keep others, or leave the directory missing (C91); a program with a directory sink that was killed after its first `put` cannot be run again (`rmdir` raises on the non-empty directory), and one killed while leaving the sink can leave an index that lacks keys without notice or maps a key to the file of another (C92); `to_file(...).write` loses the old content if it is killed (C93).
29. Checkpoints shared by concurrent processes are safe without `reset_all` although documented as not thread-safe; with it, a `set` can raise `FileNotFoundError` (C94).
30. `CharSink.to_nowhere()`: `closed` is a method, so the open sink looks closed; `write` returns `None`; an iterator given to `writelines` is not run (C95).
31. A zip sink's puts are not durable before it is left, and a killed appending session can make the whole archive unreadable; the next appending session then starts an empty archive behind the old data without notice, so all earlier keys are lost (C96).
32. `from_key_value_pairs([("a", d), ("a.b", 1)])` changes the caller's dictionary `d`; with `[("a", d), ("b", d), ("a.x", 1)]` the last pair also sets `b.x` (C99).
33. `join_key_value_stores` opens (and empties) its output before it reads its inputs: with the output among the inputs it raises and that input is lost (C64).
34. `split_key_value_store` and `downsample_key_value_store` with an input of the documented type `file-map` report success and write empty stores (C101, from C74).
35. `split_key_value_store` writes `_slices.txt` before the slices, in place: if a re-run of a finished split is killed meanwhile, the list ends early although all slices are there, and joining by it silently yields a part of the entries (C102).
36. A killed `directory_to_key_value_store` or `join_key_value_stores` into a directory cannot be run again: the directory is then missing (`ParameterError`) or not empty (`OSError`), for ever; `tar_gz_to_zip` removes the old archive before anything is read, and killed with `--dont-stream` leaves the extracted files behind (C102, C103).
37. `Parameters` objects are frozen but share their lists with the program: appending to a list that was in the mapping given to `from_mapping`, or to the result of `arbitrary_list`, changes the parameters (C104).
38. A zip source whose keys function raises in `__enter__` stays open; a source object used before then lists the keys of the earlier file beside the values of the new one (C97).
39. A range set of integers that covers everything contains every string and accepts ranges of strings; the same calls in another order raise `TypeError` (C105).
40. A zip sink that overwrites has emptied the store before it calls the function that reads keys: if that function raises, the old store is lost although the block never ran. If the function that writes keys raises, the archive stays open and the file unreadable until the object is collected (C106).
41. NaN is in every range without a lower bound and in no other; `closed(0, nan)` contains every number from 0 on; a range with a NaN endpoint is not equal to itself; adding a range to a range set that holds one with upper endpoint NaN can remove values from the set (C107).
42. `floating_point(name, valid_range)` returns NaN if the valid range has no lower bound, e.g. `Range.at_most(1.0)` (C108).
43. A directory sink writes outside its directory for a key such as `../e` or `/home/e`; it does not reject such keys (C109). Keys of which one is a path above the other (`a` and `a/b`) cannot both be stored: the second `put` raises `OSError`.
44. A dictionary in a list is neither converted nor copied by `from_mapping`, and `as_nested_dicts` returns the parameters' own lists: changing either changes the parameters (C110, C104).
45. A `put` of a string with a lone surrogate raises, but not cleanly: in a directory it empties the file of the key, so that a value put before is served as the empty string; in a zip file the key is listed without a value. `CharSink.write` loses what was in the file (C111).
46. If a `put` to a directory sink fails while writing (disk full) and the program goes on, a value put before under that key is replaced by a part of the new one, and served without notice (C112).
47. A parameter of the wrong type is documented as a `ParameterError`. If it is a namespace in which something cannot be written as text (a null from the YAML file, bytes, another object, a `Parameters` in a list), making the message fails and the accessor raises `RuntimeError` (C47, and so for everything built on the accessors; the same for objects refused by `object_from_parameters`, C53).
