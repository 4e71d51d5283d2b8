# Single source for properties.jsonl, MANIFEST.json and the per-property table of DESIGN.md.
# P(id, title, statement, quantifier, why_tests_cant, anchors, design, status, theorems, note)
PROPS = []
def P(id, title, statement, quantifier, why, anchors, design, status="partial", theorems=(), note=""):
    PROPS.append(dict(id=id, title=title, statement=statement, quantifier=quantifier,
                      why_tests_cant=why, anchors=list(anchors), design=design,
                      status=status, theorems=list(theorems), note=note))

R = "vistautils/range.py:"
S = "vistautils/span.py:"
A = "vistautils/annotated_text_utils.py:"
I = "vistautils/iter_utils.py:"
G = "vistautils/_graph.py:"
PA = "vistautils/parameters.py:"
K = "vistautils/key_value.py:"
IO = "vistautils/io_utils.py:"
M = "vistautils/misc_utils.py:"
SC = "vistautils/scripts/"

ORD = "all linearly ordered endpoint types, all endpoints / ranges over them"
HIST = "all endpoint types, all finite histories of add / add_all / clear on a mutable range set, all query arguments"

P("C01", "Range factories contain exactly the documented values",
  "Each of Range.open/closed/closed_open/open_closed/less_than/at_most/greater_than/at_least/all returns a range r such that, for every v, `v in r` iff v satisfies the documented inequality (e.g. a < v <= b for open_closed); the two-endpoint factories raise ValueError exactly when upper < lower, or (open only) when upper == lower.",
  ORD, "A test fixes a few endpoints; the claim is for every pair of endpoints and every probe value of every ordered type.",
  [R+"Range.open", R+"Range.closed", R+"Range.closed_open", R+"Range.open_closed", R+"Range.less_than", R+"Range.at_most", R+"Range.greater_than", R+"Range.at_least", R+"Range.all", R+"Range.__contains__", R+"Range.__attrs_post_init__", R+"_Cut.compare_to"],
  "Model the four cut classes and compare_to branch by branch over any LinearOrder; prove compare_to is the comparison of a linear order; membership by cases.")
P("C02", "Range.encloses is a partial order that implies containment",
  "encloses is reflexive, transitive and antisymmetric (up to ==) on ranges; r.encloses(s) implies every value of s is in r; over a dense order without end points the converse holds for every s that is not empty.",
  ORD, "Order laws quantify over triples of ranges of every shape.",
  [R+"Range.encloses"], "Algebra on the cut order; density case via DenseOrder/NoMinOrder/NoMaxOrder.")
P("C03", "is_connected means a common enclosed range exists",
  "r.is_connected(s) iff some range is enclosed by both; it is reflexive and symmetric; Range.intersects returns the same answer as is_connected (so it is True for ranges that merely touch).",
  ORD, "Existential over all ranges.", [R+"Range.is_connected", R+"Range.intersects"],
  "Witness = [max lower, min upper]; case analysis of the comparison results.")
P("C04", "intersection is the greatest common sub-range, defined iff connected",
  "r.intersection(s) raises ValueError iff r and s are not connected; otherwise it returns a range enclosed by both that encloses every range enclosed by both, contains v iff both do, and is commutative, associative (including definedness), idempotent, with identity Range.all().",
  ORD, "Lattice laws over all pairs/triples.", [R+"Range.intersection"],
  "Model the three branches; compare to max/min of cuts.")
P("C05", "span / create_spanning give the least enclosing range",
  "r.span(s) always succeeds, encloses both, and is enclosed by every range enclosing both; it is commutative, associative and idempotent; create_spanning(rs) raises ValueError iff rs is empty and otherwise is the least range enclosing every member.",
  ORD+", all finite sequences of ranges", "Quantifies over all enclosing ranges and all sequence lengths.",
  [R+"Range.span", R+"Range.create_spanning"], "Model branches; fold of min/max.")
P("C06", "Range equality, hashing, emptiness, bounds and descriptions are consistent",
  "Equal ranges have equal hash, contain the same values and report the same bounds; is_empty holds exactly for ranges [v..v) and (v..v], and an empty range contains no value; lower_endpoint/upper_endpoint raise ValueError (and the bound types AssertionError) exactly when has_lower_bound/has_upper_bound is False; bound types report open/closed correctly; repr always works, and different ranges have different descriptions if endpoints are rendered differently, without dots and not as infinities (counterexample otherwise).",
  "all ranges over any linearly ordered endpoint type", "Hash/eq consistency is over all pairs.", [R+"Range.__eq__", R+"Range.__hash__", R+"Range.is_empty", R+"Range.lower_endpoint", R+"Range.lower_bound_type"],
  "Hash is modelled with an arbitrary endpoint hash function.")
P("C07", "Ranges are convex",
  "If c1 <= c2 <= c3 and c1 in r and c3 in r then c2 in r, for every range r that can be constructed.",
  ORD, "Over all triples.", [R+"Range.__contains__"], "Order argument.")
P("C08", "Range sets stay in normal form under every history",
  "After any history the ranges reported by as_ranges() are in increasing order, none is empty, no two are connected, and len/is_empty agree with them.",
  HIST, "Invariant over unbounded operation histories.", [R+"_MutableSortedDictRangeSet.add", R+"_MutableSortedDictRangeSet.clear", R+"_SortedDictRangeSet.as_ranges", R+"_clear", R+"_value_below", R+"_value_at_or_below"],
  "SortedDict modelled as a key-sorted association list with bisect/irange/del/setitem; invariant by induction over op lists.")
P("C09", "Range-set membership is exactly the union of what was added",
  "After any history, v in the set iff v is in some range added since the last clear.",
  HIST, "Refinement over histories.", [R+"_SortedDictRangeSet.__contains__", R+"_MutableSortedDictRangeSet.add", R+"_MutableSortedDictRangeSet.clear"],
  "Refinement to the predicate union.")
P("C10", "add yields the minimal normal-form set; insertion order is irrelevant",
  "After adding ranges rs (any order), the set encloses each non-empty one and every pairwise-disconnected family of ranges that encloses all of them also encloses every member of the set; hence any permutation of the same adds produces an equal range set with the same as_ranges().",
  HIST, "Universal over competing families and permutations.", [R+"_MutableSortedDictRangeSet.add", R+"MutableRangeSet.add", R+"RangeSet.__eq__"],
  "Leastness proved per add step, then by induction; uniqueness by antisymmetry.")
P("C11", "encloses / encloses_all / range_enclosing_range are exact",
  "rs.encloses(r) iff some member encloses r; encloses_all(rs') iff every range is; range_enclosing_range returns that member, or None iff there is none.",
  HIST, "All queries, all histories.", [R+"_SortedDictRangeSet.encloses", R+"RangeSet.encloses_all", R+"_SortedDictRangeSet.range_enclosing_range"], "Floor-entry lookup correct under the normal-form invariant.")
P("C12", "range_containing returns the unique member containing the value",
  "range_containing(v) returns a member containing v if one exists and None otherwise; at most one member contains v.",
  HIST, "All values, all histories.", [R+"_SortedDictRangeSet.range_containing"], "Same lookup lemma.")
P("C13", "RangeSet.intersects means a non-empty common sub-range",
  "rs.intersects(r) iff there is a non-empty range enclosed both by r and by some member; no exception is raised.",
  HIST, "All queries, all histories.", [R+"_SortedDictRangeSet.intersects"], "Ceiling/lower entry argument.")
P("C14", "ranges_overlapping returns exactly the members connected to the query, in order",
  "ranges_overlapping(r) is the sub-sequence of as_ranges() consisting of the members connected with r.",
  HIST, "The index arithmetic has boundary cases for every relative position.", [R+"_SortedDictRangeSet.ranges_overlapping"], "bisect bounds vs filter on sorted list.")
P("C15", "ranges_enclosed_by returns exactly the enclosed members, in order",
  "ranges_enclosed_by(r) is the sub-sequence of as_ranges() consisting of members m with r.encloses(m).",
  HIST, "Early break must never lose a member.", [R+"_SortedDictRangeSet.ranges_enclosed_by"], "Contiguity of the enclosed block.")
P("C16", "rightmost_containing_or_below",
  "Returns the greatest member m having some lower bound not above the limit (m contains the limit or lies entirely below it, or starts at it closed), None iff no member qualifies.",
  HIST, "All limits, all histories.", [R+"_SortedDictRangeSet.rightmost_containing_or_below"], "Last element of the filtered sorted list.")
P("C17", "leftmost_containing_or_above",
  "Returns the least member whose upper bound is not below the limit, None iff no member qualifies.",
  HIST, "All limits, all histories.", [R+"_SortedDictRangeSet.leftmost_containing_or_above"], "find? on the sorted list.")
P("C18", "RangeSet.span is the least range enclosing everything added",
  "span raises ValueError iff the set is empty; otherwise it is the least range enclosing every non-empty range added since the last clear.",
  HIST, "All histories.", [R+"_SortedDictRangeSet.span"], "First lower, last upper; leastness via C10.")
P("C19", "The state of a range set rebuilds it; equality is extensional",
  "__setstate__(__getstate__(rs)) reproduces a range set equal to rs answering every query identically, for every reachable rs (the ranges of the state being the same objects; for real pickling, which copies them, see C88); a == b iff they have the same as_ranges().",
  "all histories of mutations", "All reachable states.", [R+"RangeSet.__getstate__", R+"_SortedDictRangeSet.__setstate__", R+"RangeSet.__eq__"], "SortedDict(list) modelled by repeated setitem; identity on sorted lists.")
P("C20", "Built immutable range sets are snapshots",
  "A range set returned by Builder.build() (or immutable_copy()) never changes, whatever further calls are made on any builders and mutable range sets; it has what its builder had at the time. Each builder or mutable set has what was added to it since it was made or last cleared, whatever is done with others. as_ranges() is a view: of an immutable set it always shows the same, of a mutable one what is in the set when it is looked at (so it can change: counterexample).",
  "all interleavings of add, clear and build on any number of builders and mutable sets", "History property about aliasing.", [R+"_ImmutableSortedDictRangeSet.Builder", R+"_SortedDictRangeSet.immutable_copy"],
  "Heap model with mutable dict cells and copy; frame argument.")
P("C21", "ImmutableRangeMap accepts exactly disconnected non-empty keys",
  "Constructing an ImmutableRangeMap from a mapping raises ValueError iff some key range is empty or two distinct key ranges are connected.",
  "all finite mappings from ranges to values, in every order", "A length comparison after coalescing stands for a pairwise check.", [R+"ImmutableRangeMap.__attrs_post_init__", R+"ImmutableRangeMap._init_range_set"],
  "Counting argument: each add grows the set by at most one, with equality iff disconnected from all and non-empty.")
P("C22", "ImmutableRangeMap lookup is exact",
  "For every constructed map, m[k] is the value of the unique key range containing k, None if there is none; k in m iff some key range contains k; lookups never raise KeyError.",
  "all constructed range maps, all probe keys", "All maps, all keys.", [R+"ImmutableRangeMap.__getitem__", R+"ImmutableRangeMap.__contains__"], "range_set members = keys when accepted.")
P("C23", "ImmutableRangeMap navigation returns values of the right key ranges",
  "get_enclosed_by(r) returns exactly the values of keys enclosed by r; get_from_rightmost_containing_or_below / get_from_leftmost_containing_or_above return the value of the corresponding extreme key range, None iff none; running the constructor again on the items __reduce__ gives rebuilds an equal map (for real pickling, which copies the keys, see C88).",
  "all constructed range maps, all probes", "All maps, all probes.", [R+"ImmutableRangeMap.get_enclosed_by", R+"ImmutableRangeMap.get_from_rightmost_containing_or_below", R+"ImmutableRangeMap.get_from_leftmost_containing_or_above", R+"ImmutableRangeMap.__reduce__"], "From C15-C17 and C21.")
P("C24", "Span predicates mean what they say about offsets",
  "For all spans: overlaps iff some offset is in both; contains_span iff every offset of the other is in it; precedes/follows iff every offset of one is below every offset of the other; exactly one of precedes, follows, overlaps holds; len is the number of offsets; a Span is constructible iff start < end. Objects with a span start, end and contain what their span does. Different spans have different representations.",
  "all pairs of integer spans", "Unbounded integers.", [S+"Span.overlaps", S+"Span.contains_span", S+"Span.precedes", S+"Span.follows", S+"Span.__len__", S+"Span._validate_start"], "Integer arithmetic against offset sets.")
P("C25", "intersection and clip_to give exactly the common offsets",
  "a.intersection(b) and a.clip_to(b) return None iff no offset is shared, else a span whose offsets are exactly the shared ones; they agree with each other, never raise, and are commutative / idempotent as set intersection.",
  "all pairs of integer spans", "Unbounded integers; intersection goes through closed ranges with +-1 conversions.", [S+"Span.intersection", S+"Span.clip_to", S+"Span.as_range"], "Reuse the Range model.")
P("C26", "shift translates offsets and composes",
  "s.shift(d) never raises, has the same length, contains i iff s contains i-d; shifting by d then e equals shifting by d+e; shifting preserves overlaps, contains_span and precedes.",
  "all spans and shifts", "Unbounded integers.", [S+"Span.shift"], "Integer arithmetic.")
P("C27", "minimal_enclosing_span is the least enclosing span",
  "minimal_enclosing_span(spans) raises ValueError iff spans is empty; otherwise it contains every span and is contained in every span that does.  (For a one-shot iterator, which the declared Iterable type admits, the code raises ValueError whatever the content.)",
  "all finite collections of spans, re-iterable or one-shot", "All lengths.", [S+"Span.minimal_enclosing_span"], "Fold min/max; iterator state modelled explicitly.")
P("C28", "HasSpanIndex.index answers span queries exactly",
  "For an index of any items: get_exactly_matching / get_overlapping / get_contained / get_containing return exactly the set of indexed items whose span matches / overlaps / is contained in / contains the query.",
  "all finite item collections, all query spans", "All collections.", [S+"_OverLappingHasSpanIndex", S+"HasSpanIndex.index"], "Set multi-dict modelled as grouped association list.")
P("C29", "index_disjoint accepts exactly non-overlapping spans and answers queries exactly",
  "index_disjoint raises ValueError iff two items have different spans that overlap (adjacent spans are accepted); otherwise get_exactly_matching / get_overlapping / get_contained / get_containing return exactly the items whose span matches / overlaps / is contained in / contains the query, where of several items with one span the last counts, and get_containing needs item equality not to identify items with different spans.",
  "all finite item collections, all query spans", "All collections and queries.", [S+"_DisjointHasSpanIndex", S+"_build_range_to_item_index"], "Via C21-C23 for closed integer ranges.")
P("C30", "Annotated text preserves the text",
  "Removing the inserted tags from annotated_text(text, annotations, text_offsets) yields text, for every non-empty text, annotations and offsets with non-negative start.",
  "all texts, all annotation collections, all snippet offsets", "All inputs.", [A+"HTMLStyleAnnotationFormatter.annotated_text"], "Output modelled as a list of text/tag pieces; erasure theorem.")
P("C31", "Annotated text is well nested",
  "If the annotations' spans, clipped to the snippet, are pairwise distinct and pairwise nested or disjoint then the tags in the output are properly nested.  (Two annotations with the same clipped span come out crossed.)",
  "all annotation collections with laminar spans", "Sorting ties only show on particular shapes.", [A+"HTMLStyleAnnotationFormatter._tag_sequence"], "Stack-machine acceptance; false for two annotations with the same span, so proved for distinct spans plus a counterexample.")
P("C32", "Each tag is placed at its offset",
  "Each annotation overlapping the snippet contributes exactly one start and one end tag, and the text between them is exactly the text of its span clipped to the snippet; annotations outside contribute nothing. create_div_of_class and create_span_of_class make annotations with the tags div and span and that one attribute.",
  "all texts, annotations, offsets", "All inputs.", [A+"HTMLStyleAnnotationFormatter._clip_to_offsets_and_shift", A+"HTMLStyleAnnotationFormatter.annotated_text"], "Prefix lengths of emitted text.")
P("C33", "Annotation order does not matter",
  "If the clipped spans are pairwise distinct, permuting the annotations does not change the output.",
  "all permutations", "All permutations.", [A+"HTMLStyleAnnotationFormatter._tag_sequence"], "Stable sort with injective key is permutation invariant.")
P("C34", "windowed without partial windows yields all complete windows in order",
  "list(windowed(xs, w)) = [xs[i:i+w] for i in range(len(xs)-w+1)] for every xs and w >= 1; w < 1 raises ValueError; iterating the iterable form repeatedly yields the same windows.",
  "all sequences, all window sizes", "All sizes.", [I+"windowed", I+"_complete_windows", "vistautils/iterutils.py:tile_with_pairs"], "Deque with maxlen modelled; induction.")
P("C35", "windowed with partial windows yields one window per element",
  "list(windowed(xs, w, partial_windows=True)) = [xs[i:i+w] for i in range(len(xs))].",
  "all sequences, all window sizes", "All sizes, incl. w > len.", [I+"_possibly_incomplete_windows"], "Same plus the drain loop.")
P("C36", "drop skips exactly n elements and leaves the rest",
  "drop(it, n) raises ValueError iff n < 0; otherwise yields xs[n:]; on an Iterable the result can be iterated any number of times with the same outcome; on an Iterator a second iteration yields nothing.",
  "all sequences and n", "All sizes.", [I+"drop", I+"_DropIterable"], "islice model.")
P("C37", "only / get_only return the element iff there is exactly one",
  "only(it) and get_only(it) return x iff the input has exactly one element x and raise ValueError otherwise, and consume at most two elements.",
  "all sequences", "All inputs.", [I+"only", "vistautils/collection_utils.py:get_only"], "Iterator model with consumption count.")
P("C38", "Small helpers: non_none, flatten_once_to_list, strip_extension, str_list_limited",
  "non_none keeps exactly the non-None elements in order; flatten_once_to_list concatenates; strip_extension(stem + '.' + ext) = stem for dot-free ext and is identity on dot-free names; str_list_limited shows str(list) when within limit and otherwise the first `limit` items and the exact count of the rest; negative limit raises ValueError.",
  "all inputs", "All inputs.", [I+"non_none", M+"flatten_once_to_list", M+"strip_extension", M+"str_list_limited"], "List functions.")
P("C39", "topological_sort output is a linear extension",
  "If topological_sort finishes without error, its output lists every node exactly once and every edge's source before its target. in_degree()[n] is the number of nodes with an edge to n, and iterating over in_degree() gives each node once, with that number.",
  "all finite directed graphs, all iteration orders of the edge sets", "All graphs.", [G+"Digraph.topological_sort"], "Kahn's algorithm as a state machine with an invariant.")
P("C40", "topological_sort raises iff the graph has a cycle",
  "topological_sort raises ParameterInterpolationError iff the graph has a directed cycle; it always terminates; the nodes named in the error are exactly those on or downstream of a cycle, and all the others have been yielded, once each, after their predecessors.",
  "all finite directed graphs", "All graphs.", [G+"Digraph.topological_sort", G+"validate_edges"], "Termination measure; leftover nodes all have a leftover predecessor, hence a cycle.")
P("C41", "Parameter lookup follows the dotted path",
  "Looking up n1.….nk succeeds iff following the names through nested namespaces reaches a value, and then returns that value; p.namespace(a) lookup of b equals p lookup of a.b; `in` is True iff the lookup yields a non-None value; with a non-None default the default is returned iff the path does not exist.",
  "all parameter trees, all names", "All trees, all paths.", [PA+"Parameters._private_get", PA+"Parameters.get", PA+"Parameters.__contains__", PA+"Parameters.namespace"], "Tree model; str.split modelled; composition lemma.")
P("C42", "from_mapping and as_nested_dicts are inverse",
  "For every nested dict d with string keys: from_mapping(d) succeeds iff no key at any depth contains '.', and raises ValueError otherwise; on success as_nested_dicts() == d, the leaves of the result are exactly the leaves of d at the same paths, every nested namespace stores its own path as namespace_prefix, and from_mapping(p.as_nested_dicts()) gives p back.",
  "all nested mappings", "All depths.", [PA+"Parameters.from_mapping", PA+"Parameters.as_nested_dicts", PA+"Parameters.__attrs_post_init__"], "Mutual induction on trees.")
P("C43", "namespaced_items enumerates exactly the leaves under their full names",
  "For every p made by from_mapping at the top level, namespaced_items() yields each non-namespace value exactly once, and (name, v) is yielded iff following the dotted name reaches the non-namespace value v.",
  "all nested mappings", "All depths.", [PA+"Parameters.namespaced_items"], "Induction; join/split inverse.")
P("C44", "from_key_value_pairs rebuilds what namespaced_items lists",
  "For pairs of names and non-mapping values, from_key_value_pairs succeeds iff no name is empty and no name goes through an already assigned leaf; the leaves of the result are exactly what assigning in order leaves behind (later pairs override); a failure is RuntimeError for an empty name or TypeError for a name through a leaf. from_key_value_pairs(p.namespaced_items()) has exactly the leaves of p unless p has a parameter with the empty name (then it raises RuntimeError: counterexample).",
  "all key-value sequences", "All sequences.", [PA+"Parameters.from_key_value_pairs"], "Fold of path insertion.")
P("C45", "unify is a right-biased merge",
  "p.unify(q) raises IOError iff some path is a (non-None) leaf on one side and a namespace on the other; otherwise every leaf of the result is q's value where q has a non-None value, else p's; nothing else appears, and the namespaces are those of either side. For top-level objects p.unify(empty)=p, empty.unify(p)=p, p.unify(p)=p, the result is again such an object. Both groupings of three objects give equal results whenever both succeed (one may fail when a None hides a namespace: counterexample).",
  "all pairs/triples of parameter trees", "All trees.", [PA+"Parameters.unify"], "Recursive merge; null values behave specially (C46).")
P("C46", "A null value in new_params never overrides",
  "If q maps a path to None and p has a non-None value there, p.unify(q) keeps p's value (contrary to the docstring's conflict rule).",
  "all parameter trees", "All trees.", [PA+"Parameters.unify", PA+"Parameters.__contains__"], "Consequence of `in` treating None as absent.")
P("C47", "Typed accessors never return a value of the wrong type or range",
  "string/integer/floating_point/boolean/arbitrary_list/namespace return only the value found (or the default) and only if it has that type (True/False count as integers, as in Python); positive_integer only values > 0; integer/floating_point(valid_range) only values in the range; string(valid_options) and enum only listed values; everything else raises ParameterError, except that where the value is a namespace in which something cannot be written as text (a null, bytes, another object, a Parameters in a list), making the message raises RuntimeError (counterexample).",
  "all parameter trees, names and arguments", "All inputs.", [PA+"Parameters.get", PA+"Parameters.integer", PA+"Parameters.positive_integer", PA+"Parameters.string", PA+"Parameters.floating_point", PA+"Parameters.enum"], "Dynamic values as a sum type; isinstance table (bool is an int).")
P("C48", "Optional accessors return the parameter, the default, or None",
  "optional_X(name) equals X(name) when name is present; when absent it is the default, except that optional_positive_integer validates the default, optional_floating_point range-checks it if it is a float (an integer default is returned unchecked: counterexample), and falsy defaults (0, 0.0, []) of those and of optional_arbitrary_list come back as None (counterexample to the documented behaviour); optional_arbitrary_list refuses a truthy non-list default even when the parameter is present. Refused means ParameterError, or RuntimeError for the exception of C47.",
  "all parameter trees, names and defaults", "Falsy defaults.", [PA+"Parameters.optional_integer", PA+"Parameters.optional_positive_integer", PA+"Parameters.optional_floating_point", PA+"Parameters.optional_string", PA+"Parameters.get_optional", PA+"Parameters.optional_arbitrary_list"], "Per-accessor theorem; falsy float default is a counterexample.")
P("C49", "assert_exactly_one_present",
  "assert_exactly_one_present(names) succeeds iff exactly one entry of names is present, else raises ParameterError.",
  "all trees and name lists", "All lists.", [PA+"Parameters.assert_exactly_one_present"], "filter length.")
P("C50", "Interpolation replaces every placeholder by the final value of the parameter it names",
  "When interpolation succeeds, the result has the namespaces of the file with the same keys in the same order; parameters that are not strings are unchanged; a string that is just %name% becomes the final value of name (any type); any other string is its text with each %name% replaced by the final value of name, which is a string.  The final value of a name is what the result itself has there if that counts as true, otherwise the context's value.  The result is the only one with these properties.  (For files in which no placeholder looks for a parameter inside a non-namespace parameter of the file; without that the outcome depends on the order of the file.)",
  "all parameter files and contexts, all word-character classes", "Order of substitution must be right for every dependency graph.", [PA+"YAMLParametersLoader._interpolate"], "Model regex matching, graph building, ordering and in-place substitution on shared mutable dicts; loop invariant along the topological order; result read back through the store. Counterexamples: order dependence, wrong prefix of a namespace taken from the context.")
P("C51", "Cyclic interpolation is reported; interpolation succeeds exactly when there is a correct result",
  "Interpolation raises ParameterInterpolationError iff the placeholders form a cycle; it succeeds iff they do not and a correct result (as in C50) exists; otherwise it raises ParameterError or, for a namespace that would contain itself, RecursionError, never the 'impossible' RuntimeError.  In particular a name found neither in file nor context, or a non-string embedded in a longer string, makes it fail. A placeholder that goes on below a parameter of the file that is not a namespace makes it fail in any case if it goes on by one component (AttributeError), or by more and the value is a string that contains, or a list that has, the next component, or is neither a string nor a list (TypeError); the exception is that of one such placeholder.",
  "all parameter files and contexts", "All graphs.", [PA+"YAMLParametersLoader._interpolate", G+"Digraph.topological_sort"], "Via C40; completeness by running the loop against a given correct result. Counterexamples: falsy values count as missing, self-containing namespace.")
P("C52", "Loading: included files are merged with later files taking precedence",
  "The loaded parameters are the given context overridden, in this order, by each included file (each after those it includes itself) and by the file itself; each file is interpolated with what was loaded before it as context, and with those environment variables not hidden by a parameter; variables never appear by themselves. load fails with ParameterError if both context arguments are given, with the reading error if the top file cannot be read, and otherwise any failure is an IOError; it succeeds exactly when all files involved are readable mappings with string keys which can be interpolated and unified in turn. Inclusion cycles, non-string keys and relative includes in load_string are IOErrors.",
  "all include trees, file systems, YAML contents, contexts, environments, recursion limits", "All trees, all file systems, unbounded inclusion depth.", [PA+"YAMLParametersLoader._inner_load_from_string", PA+"YAMLParametersLoader.load", PA+"YAMLParametersLoader.load_string", PA+"YAMLParametersLoader._check_all_keys_strings"], "Loader as a recursive function over an abstract file system and YAML parser; the files are listed by an inductive relation, the result by layers; refinement by induction on the recursion depth, idempotence of re-unifying already included parameters.")
P("C53", "object_from_parameters only returns objects of the expected type, chosen by the documented priority",
  "The result is always an instance of expected_type; an object found that is of another type gives ParameterError (TypeError if a string was evaluated to it; RuntimeError if it is a Parameters object that cannot be written as text: counterexample), and the type has no other effect. Absent name: the default value, else what the default factory makes of an empty Parameters, else ParameterError. String: a special value is returned as is, any other text is evaluated with its dotted prefixes imported. Namespace: exactly one of value and factory must be present; value is evaluated, an evaluated factory is applied to the namespace (class with from_parameters, class without, callable). Four documented details are violated and shown by counterexample: special factories for strings, special values in namespaces, the prefix of the object given to a default factory, and the exception class.",
  "all parameter trees, special maps, defaults, contexts; every behaviour of eval, import and the factories", "All combinations, with arbitrary evaluated code.", [PA+"Parameters.object_from_parameters", PA+"_extend_prefix", "vistautils/misc_utils.py:eval_in_context_of_modules"], "Decision logic with an abstract interpreter; success characterised by iff.")
P("C54", "Zip store round trip",
  "A with-block on a new zip sink (character or bytes; path absent, or overwrite on) in which distinct keys are put raises nothing, and a zip source entered on the same path then serves exactly those pairs: keys() lists each key once, source[k] and get(k, d) return the value put, and for every other key source[k] raises KeyError and get returns d. Conditions: the filename function is injective on the keys in use and gives names without NUL other than '__keys'; keys contain no line feed; the keys are not just the empty string. Without them the property fails (collisions replace silently, the key '__keys' is lost).",
  "all put sequences with distinct keys, all values, all filename functions and key sets meeting the conditions, all iteration orders of the key set", "All histories.", [K+"_ZipKeyValueSink", K+"_ZipFileKeyValueSource", K+"_write_keys_to_keys_file", K+"_read_keys_from_keys_file"], "Archive as append-only entry list; refinement to a map.")
P("C55", "Sessions accumulate",
  "For any sequence of with-blocks, each on a new sink for the same path, some overwriting and some appending: no block raises; an overwriting block starts from an empty store, an appending one from what is there; put raises ValueError for exactly the keys that are there at that moment, and otherwise adds the pair; and a source opened at the end serves exactly the resulting mapping. (One sink object used for two blocks keeps the keys of the first: counterexample.)",
  "all sequences of sessions, all put sequences including duplicates, all filename functions and (non-empty) keys meeting the conditions of C54", "All histories.", [K+"_ZipKeyValueSink.__enter__", K+"_ZipKeyValueSink.__exit__", K+"_ZipKeyValueSink.put"], "State machine over sessions.")
P("C56", "Rejected puts change nothing",
  "put of a key the sink has, or of None, raises ValueError, and put before the sink is entered raises AssertionError; the sink stays exactly as it was, and a session leaves the same file as it would without the rejected call. (Not so for a value of another type, or after the block: the key is recorded although put raised — counterexamples.)",
  "all sink states, keys, values, and positions of the rejected call in a session", "All histories.", [K+"_ZipKeyValueSink.put"], "Step lemma.")
P("C57", "The key listing round-trips",
  "Reading the key file written for a set of keys returns the same set iff no key contains a newline and the set is not exactly {''}.",
  "all finite key sets", "All sets.", [K+"_read_keys_from_keys_file", K+"_write_keys_to_keys_file"], "join/split inverse.")
P("C58", "Key-value sources agree with themselves",
  "For every source, items(filter) yields exactly (k, source[k]) for k in keys() passing the filter, in that order, until a lookup raises; without keys it raises NotImplementedError. For file-map sources and entered zip sources, get(k, d) is source[k] where that succeeds, d itself where it raises KeyError, and raises what source[k] raises otherwise; zip sources that are not entered raise AssertionError.",
  "all sources, filters, keys, defaults of any type", "All inputs.", [K+"KeyValueSource.items", K+"_PathMappingCharKeyValueSource", K+"_ZipFileKeyValueSource.get"], "Generic source model.")
P("C59", "Interpreted sources are value maps",
  "interpret_values(s, f): keys unchanged, value f(k, s[k]), the default passed through untouched, items mapped in order until f raises; interpreting twice is interpreting with the composite; both ways of interpreting the items of a source agree.",
  "all sources and functions, including ones that raise", "All functions.", [K+"_InterpretedKeyValueSource", K+"InterpretedLinearKeyValueSource"], "Functor laws.")
P("C60", "Tar sources expose exactly the selected regular files",
  "items(key_filter) yields, in archive order, the key and content of exactly the regular-file members passing name_filter whose key is non-empty and passes key_filter, until one cannot be extracted; read as text, the values are the decoded contents, and the first content that is not UTF-8 ends the items with a ValueError after those before it; before the source is entered it raises AssertionError.",
  "all archives, key functions, filters", "All archives.", [K+"TarGzipBytesLinearKeyValueSource.items"], "filterMap.")
P("C61", "DocID-to-file maps round-trip",
  "read_doc_id_to_file_map returns, if every line of the source has exactly two tab-separated fields, the mapping of the stripped first field to the path named by the stripped second, the last line of an id counting; otherwise it raises IOError. Of what write_doc_id_to_file_map wrote it returns the same mapping with the paths made absolute, its keys in sorted order, provided ids and paths have no tab, line feed, or white space at their ends. (A blank line is an error; an id with white space at its end comes back changed: counterexamples.)",
  "all texts; all finite maps", "All maps.", [IO+"write_doc_id_to_file_map", IO+"read_doc_id_to_file_map"], "Line/field split inverses.")
P("C62", "Directory sinks round-trip through their index",
  "A with-block on a directory sink (character or bytes) over an empty directory raises nothing, changes nothing outside the directory, and a source made from the directory's _index then serves exactly the last value put for each key: keys() lists each once, source[k] and get(k, d) give the value, for other keys KeyError and d. For text, line ends are translated on reading. Conditions: keys are plain file names other than '_index', without tab, line feed, carriage return or white space at their ends, and the names in the absolute path have no tab, line feed or carriage return. If the directory is missing or not empty, entering raises OSError and nothing changes. (The key '_index' is overwritten by the index; carriage returns are not read back: counterexamples.)",
  "all put sequences, all values, all file-system states, directories and working directories", "All histories.", [K+"_DirectoryCharKeyValueSink", K+"KeyValueSource.from_doc_id_to_file_map"], "File system as a map; C61.")
P("C63", "Even splitting partitions the store",
  "For a source whose keys are plain names, splitting into n slices creates the output directory, an n-line list of the slices and n zip stores; every key with its value is in exactly one slice, nothing is added, and sizes differ by at most one; the keys are dealt to the slices in turn in sorted order, or in the order of the shuffle if there is a seed, whatever permutation the shuffle gives; nothing else changes. A source that cannot list its keys raises TypeError; a bad parameter raises ParameterError (see C47 for the exception when it is a namespace).",
  "all stores with plain keys, all n >= 1, all shuffles, all file-system states in which the outputs can be made", "All sizes.", [SC+"split_key_value_store.py:_split_into_even_slices"], "Round-robin counting.")
P("C64", "Joining the slices restores the store; duplicates are rejected",
  "Joining zip stores into a zip store that is not one of them yields exactly the union and succeeds iff no key occurs in two inputs; otherwise RuntimeError is raised and the output holds entries of the inputs only. The same holds of joining into an empty directory (output.type file-map): a source made of the index in the directory serves exactly the union, and nothing outside the directory changes; joining into a directory that is not empty raises OSError, and into one that does not exist ParameterError, and changes nothing. An input that does not exist raises OSError, with the union of those before it in the output; bad parameters and an output that is in the way raise ParameterError or OSError and change nothing. Joining the slices of an even split, using the list it wrote, gives the original store. If the output is one of the inputs, the script raises, and that input is lost (counterexample).",
  "all lists of zip stores with plain keys (file names for a directory), all parameters, all file-system states", "All sizes.", [SC+"join_key_value_stores.py:main"], "Fold over inputs.")
P("C65", "Explicit split copies exactly the requested keys",
  "Each output holds exactly the requested keys with their values and nothing else changes; a missing key raises RuntimeError; when the split must be exhaustive (the default), it succeeds iff every key of the store was requested, otherwise RuntimeError is raised. Exactly one of num_slices and explicit_split must be given. The flag is read from the top level: the documented explicit_split.must_be_exhaustive is ignored (counterexample).",
  "all stores with plain keys, key lists and file-system states", "All inputs.", [SC+"split_key_value_store.py:_explicit_split"], "Model loop.")
P("C66", "Downsampling keeps a sub-store of the right size",
  "The output holds min(num_to_sample, size) distinct keys of the input with unchanged values, the first ones in the order of the shuffle, whatever permutation the shuffle gives; nothing else changes. The source is asked while the output is being written; it need only go on serving its entries while nothing but the output changes. From Python 3.11 on the shuffle call raises TypeError before anything is written (counterexample). Bad parameters raise ParameterError (see C47 for the exception when it is a namespace); a source that cannot list its keys TypeError; an exception in opening the source is passed on and nothing changes.",
  "all stores with plain keys, all shuffles, all file-system states", "All inputs.", [SC+"downsample_key_value_store.py:main"], "Permutation + take.")
P("C67", "MemoryAmount.parse reads what starts with an amount and rejects everything else",
  "A string that starts with digits, at most one space and one of the letters K, M, G, T in either case is parsed to the number the digits denote and the unit of the letter, whatever follows (so text after the unit, such as B or b, is ignored); if the number is 0 a ValueError is raised; every other string raises RuntimeError. Formatting n >= 1 in decimal followed by the unit and parsing it gives n and the unit back. MemoryUnit.parse accepts exactly the four letters, in either case.",
  "all strings, amounts and units", "All strings.", ["vistautils/memory_amount.py:MemoryAmount.parse", "vistautils/memory_amount.py:MemoryUnit.parse"], "Regex match model over ASCII digits; trailing junk is accepted (counterexample).")
P("C68", "Checkpoints behave like a set of names",
  "For every history of set/reset_all on a checkpoint directory (created with its parents if need be), 'name in checkpoints' holds iff the name was set since the last reset, or was a file there at the start and there was no reset, for names that are plain file names and not those of sub-directories; it does so for any process reading the directory; nothing outside the directory changes. None raises TypeError; a file in the way OSError. The empty name and names leading out of the directory do not behave so (counterexamples).",
  "all histories, all file-system states", "All histories.", ["vistautils/checkpoints.py:_CheckPointDirectory"], "Directory as set of file names.")
P("C69", "Sinks and sources: last write wins, reads return the content",
  "StringCharSink/BufferByteSink report exactly what was written in the session that was last left, for every interleaving of sessions; None before; a closed buffer raises ValueError. read_all, readlines and is_empty of a source agree with its content, readlines giving the lines without their line ends. Text read from a file is the content with CR and CRLF turned into LF; writing to a file sink creates the directories above it, leaves exactly the content there and changes nothing else, and reading it back gives the text (up to that translation); an entry written to a zip file is read back and other entries are kept; reading an entry by path or from an open archive gives the last entry of that name, KeyError if there is none, and ValueError once the archive is closed; is_empty of compressed files and of files in tar archives agrees with their text, except that a directory in a tar archive counts as empty although it cannot be read (counterexample); file_lines_to_set gives the non-empty lines, each once, in order of first occurrence.",
  "all strings, all write histories, all file-system states", "All histories.", [IO+"StringCharSink", IO+"BufferByteSink", IO+"CharSource.readlines", IO+"_StringCharSource", IO+"file_lines_to_set"], "State machine; line splitting.")
P("C70", "Preconditions raise exactly when violated",
  "check_arg/check_state/check_not_none/check_args_are_none/check_args_not_none/check_isinstance/check_all_isinstance/check_in succeed, returning what they document, iff their condition holds, and raise ValueError, AssertionError or TypeError as documented otherwise; an error in computing the condition or formatting the message is passed on. check_opt_isinstance accepts None and instances, but also every falsy value of another type (counterexample). WithId and Scored validate with them.",
  "all values, whatever their type, truth and equality", "All values.", ["vistautils/preconditions.py:check_arg", "vistautils/preconditions.py:check_opt_isinstance"], "Dynamic value model with truthiness; check_opt_isinstance accepts wrong-typed falsy values (counterexample).")
P("C71", "Script helpers compute the documented names and texts",
  "The zip name tar_gz_to_zip derives is the input name with .tar or .tgz replaced by .zip, or with .zip added if it has none of the known endings; it always ends in .zip and is never the input name itself; for .tar.gz a dot too many stays (counterexample). text_at_offsets prints exactly the code points between the offsets, without a warning, when 0 <= start < end <= length; it warns about the start (the end) iff it is not within bounds, but prints a slice all the same (counterexample); a missing file is an OSError and a file that is not UTF-8 a ValueError; line ends are not translated.",
  "all names, texts, offsets and file-system states", "All inputs.", [SC+"tar_gz_to_zip.py:_output_name", SC+"text_at_offsets.py:main"], "String functions; .tar.gz yields a double dot (counterexample).")
P("C72", "Module context for evaluation",
  "eval_in_context_of_modules never changes the caller's context (nor any dict that existed before the call), whatever the evaluated code does to its globals and however the call ends. It imports the package prefixes of the requested modules that the context does not define, each once and in order, parents before their sub-packages, and stops at the first that cannot be imported; it succeeds with v exactly when the code evaluates to v of the expected type in the context plus these modules. _context_modules_from_prefix lists exactly the proper dotted prefixes, shortest first.",
  "all contexts, module lists, code, every behaviour of eval and import", "All lists.", [M+"eval_in_context_of_modules", PA+"Parameters._context_modules_from_prefix"], "Fold over prefixes.")
P("C73", "Directory and file parameters leave the file system as documented",
  "creatable_directory and creatable_file succeed with the resolved path unless a file is in the way (OSError, no change), and then the directory (the parent directory) and those above it exist and nothing else has changed; creatable_empty_directory returns an existing empty directory as it is, creates a missing one, raises ParameterError without any change for a file or a non-empty directory, unless delete is on, when exactly the directory's content goes; existing_file/existing_directory succeed iff the path is a file/directory and never modify anything; the optional_ variants give None iff the parameter is absent; a parameter that is not a string is a ParameterError (see C47 for the exception when it is a namespace) without any change. Paths are resolved against the working directory.",
  "all file-system states, parameter trees and working directories", "All states.", [PA+"Parameters.creatable_directory", PA+"Parameters.creatable_empty_directory", PA+"Parameters.existing_file", PA+"Parameters.existing_directory", IO+"is_empty_directory"], "Tree file-system model.")
P("C74", "Sources and sinks built from parameters are those the parameters describe",
  "For the six char/byte source, linear source and sink functions: with a namespace of type zip the source reads the existing file under path (ParameterError otherwise, or for the exception of C47 RuntimeError, and no change) and serves the store in it; the sink writes to the file under path after creating its parent directories (and what is put into it is what a zip source for the same path then serves); type file-map gives a sink for the existing directory under path. The module's own functions _doc_id_source_from_params and _doc_id_binary_source_from_params, given as the type, make a source of the document map in the existing file under path (IOError if a line has not two fields). Sources look in the namespace input and sinks in output unless another is named. Any other type is evaluated in the module's globals overridden by the caller's context, after the imports, and used as a factory on the namespace; ParameterError if it cannot be evaluated, is no factory or makes the wrong kind of object (RuntimeError if that is a Parameters object that cannot be written as text). ParameterError unless exactly one of type and value is given. Counterexamples, proved: a source of type file-map is always empty; the default used when the namespace is absent always raises ParameterError, as does a shortcut given as a string; the documented type directory is not known.",
  "all parameter trees, contexts, interpreters, file systems", "All inputs.", [K+"char_key_value_source_from_params", K+"byte_key_value_source_from_params"], "Factory selection logic; file-map yields an always-empty source (counterexample).")
P("C75", "earliest_then_longest_first_key sorts containers before what they contain",
  "sorted(spans, key=Span.earliest_then_longest_first_key) is a rearrangement of spans in which an earlier start precedes a later one and, among equal starts, a longer span precedes a shorter one; so a span never follows a different span it contains; the result does not depend on the order of the input.",
  "all finite lists of spans", "All lists.", [S+"Span.earliest_then_longest_first_key"], "Sortedness of the stable sort under the key.")
P("C76", "sub_namespaces lists the namespaces directly below",
  "sub_namespaces() returns exactly the namespaces stored directly under this one, in order; it raises TypeError iff one of them holds, at some depth, a list or other unhashable mapping.",
  "all parameter trees", "All trees.", [PA+"Parameters.sub_namespaces"], "Via C47; hashing modelled.")
P("C77", "evaluate evaluates exactly the documented expression in the documented context",
  "evaluate(name) succeeds with v exactly when: the name is a namespace whose value parameter is a string, whose import list consists of importable modules, and the (special) expression evaluates to v of the expected type in the context plus the modules and their parent packages that the context does not define; or the name is a string, with its proper dotted prefixes as modules; or the name is absent and v is the default. Every failure is a ParameterError. As a consequence an expression such as 1.5 cannot be evaluated.",
  "all parameter trees, contexts, special tables, every behaviour of eval and import", "All inputs, arbitrary evaluated code.", [PA+"Parameters.evaluate", PA+"Parameters._context_modules_from_prefix", "vistautils/misc_utils.py:eval_in_context_of_modules"], "Import loop as a fold; refinement to a lookup function.")
P("C78", "Written parameters are the nested dicts with paths as text, and can be loaded again",
  "Writing parameters hands the YAML library their nested dicts with every path (also inside lists) as a string and nothing else changed, or raises RuntimeError exactly when something that cannot be written (None, bytes, another object) occurs anywhere in them. If the YAML library reads back what it wrote, loading the text gives the same parameters and namespaces in the same order with paths as strings, provided no string has a placeholder, there is no top-level _includes parameter, and no environment variable in use has a dot in its name. None, which a parameter file can hold, cannot be written.",
  "all parameter trees, every behaviour of the YAML library and the environment", "All trees.", [PA+"YAMLParametersWriter.write", PA+"YAMLParametersWriter._preprocess_dicts", PA+"YAMLParametersLoader.load_string"], "Induction over values; a file without placeholders is its own interpolation (C50, C51), C52 and C45 for the loader.")
P("C80", "String and path helpers",
  "strip_extension removes exactly the last dot and what follows it, and leaves a name without a dot alone; flatten_once_to_list removes one level of nesting, keeping order; str_list_limited shows a list of at most limit items in full, and otherwise the first limit items and the number of the others, and raises ValueError for a negative limit; pathify leaves a path alone and parses a string, so that the text of a path gives the path back.",
  "all names, lists, limits and paths", "All strings and lists.", [M+"strip_extension", M+"flatten_once_to_list", M+"str_list_limited", M+"pathify"], "String functions; the last dot as a decomposition of the name.")
P("C79", "Lists and maps of paths, and pickled objects, are read from the file a parameter names",
  "path_list_from_file, for a string parameter, returns the lines of the file it names that are, once stripped, neither empty nor start with #, as paths in order, relative to resolve_relative_to if given (absolute paths stay as they are), where lines end as for str.splitlines; for a list parameter it returns every element (comments and blanks too), stripped, as a path. A file of one path per line gives those paths back. path_map_from_file returns the mapping of the stripped first fields to the paths named by the second, the last line of a key counting, or raises OSError if some line does not have exactly two tab-separated fields (so for a blank line). pickled_object_from_file returns what unpickling the file gives. A parameter that does not name a file is a ParameterError (see C47 for the exception when it is a namespace), a text that is not UTF-8 a ValueError, a list element that is not a string an AttributeError or TypeError; nothing is ever changed.",
  "all parameter trees, file-system states, texts and directories", "All texts.", [PA+"Parameters.path_list_from_file", PA+"Parameters.path_map_from_file", PA+"Parameters.pickled_object_from_file"], "Relational specification of line breaks; induction over lines.")
P("C82", "directory_to_key_value_store copies every file below the directory, once",
  "With a zip output that is not below the input directory, and file names whose keys are plain: if no two files at any depth below the input directory have the same key, the script succeeds and the store holds exactly one entry for each file, with its content; otherwise it raises ValueError and the store has entries of the files only. Either way nothing else changes except the directories made for the output. With an existing empty directory as output (apart from the input), the script succeeds and a source for the index serves for each key the content of a file with that key; if several files have it, all but one are silently lost (counterexample). A missing output directory is a ParameterError, one that is not empty an OSError, without any change. The key is the file name, or with strip_one_extension the name without its last dot and what follows, unless that dot is its first or last character. An input_directory that is no directory or an unknown key_function is a ParameterError (see C47 for the exception when it is a namespace) and nothing changes. The documented error for sub-directories is not raised: their files are copied (counterexample).",
  "all file-system states, parameter trees, interpreters, listing orders", "All trees and orders.", [SC+"directory_to_key_value_store.py:main", SC+"directory_to_key_value_store.py:key_function_from_params"], "Sink from C74; invariant of the copy loop; stem as a decomposition at the last dot.")
P("C84", "tar_gz_to_zip copies exactly the requested members",
  "The zip file is never at the place of the tar file. When streaming, if every regular-file member that is to be kept (all, or with --omit-large-files those not larger than the cutoff) can be read, the script succeeds and the archive holds exactly one entry for each of them, in the order of the tar file, with its name and content, and nothing but the zip file changes; reading a name gives the content of the last member of that name. A member that cannot be read, or a damaged end, raises that exception, with the members before it in the archive. With --dont-stream, if the members are regular files with plain relative names for which nothing is in the way, the archive holds all of them (large ones too), the extracted files are removed again and only their directories stay; but an existing file with the name of a member is overwritten and removed (proved for every such file; the tar file itself must not be at a member's place), and a directory member is an OSError (counterexamples). If the zip file cannot be written there is an OSError and no change; if the tar file cannot be opened, the exception is raised after an older archive has been replaced by an empty one (counterexample to its being kept).",
  "all file-system states, arguments, working directories, member lists and behaviours of the tar reader", "All member lists and states.", [SC+"tar_gz_to_zip.py:main", SC+"tar_gz_to_zip.py:getargs"], "Fold over the members; tree file-system model; extraction invariant.")
P("C81", "configure_logging_from sets the level asked for",
  "Without logging.config_file, the level named by the string logging.root_level (one of CRITICAL, FATAL, ERROR, WARNING, WARN, INFO, DEBUG; INFO if the parameter is absent) becomes the level of the root logger and one handler is added, so that in a program without handlers exactly the messages of that level and above are printed, once each; any other value is a ParameterError (see C47 for the exception when it is a namespace) and leaves logging as it was. With logging.config_file the existing file configures logging whatever root_level says, and a missing file is a ParameterError without effect. With log_params the text of the parameters is logged afterwards if the level admits it. Calling it twice makes every message appear twice (counterexample to idempotence).",
  "all parameter trees, file systems, logging states and behaviours of fileConfig", "All parameters and states.", ["vistautils/logging_utils.py:configure_logging_from", "vistautils/logging_utils.py:_config_logging_from_params"], "State of the root logger; lookup theorems of C47.")
P("C83", "The entry point runs the program once, with the parameters of the file overridden by those of the command line",
  "parameters_only_entry_point runs the program exactly once with the parameters loaded from the file, overridden by the -p pairs, after logging has been configured from them; if loading, overriding or configuring fails, that exception is raised, the program is not run and no file changes. Overriding fails exactly if a name is empty, goes through another name given, is a namespace of the file or goes through a parameter of the file; otherwise the program sees, at every path, the last value given for it, or else that of the file. Values given are always strings, so an overridden integer, float, boolean or list is a ParameterError for its typed accessor. The documented parameters= argument always ends in an AttributeError (counterexample).",
  "all parameter files, command lines, programs, environments", "All files and command lines.", ["vistautils/parameters_only_entrypoint.py:parameters_only_entry_point", "vistautils/parameters_only_entrypoint.py:_real_parameters_only_entry_point"], "Composition of C52, C44, C45 and C81.")
P("C85", "A tar source gives every member once, in order, and only while it is open",
  "However a tar source (of bytes or with interpreted values) is entered, left, entered again and iterated over, with any number of generators advanced in any order: the pairs a generator has given are those of the first members offered for its key filter, in the order of the archive, each once; a generator that says it is at its end without having raised has given them all; no pair is given unless the source has been entered and not left since; and while it stays open, a generator obtained from it gives the next member each time it is advanced, or raises if that member cannot be read or interpreted, or stops if there is none. Leaving a source never entered is an AttributeError, items() of one an AssertionError (for interpreted values, when the generator is advanced). That a source was left is not always noticed: a generator with nothing left to extract may stop without complaint (counterexample).",
  "all archives, filters, key and interpretation functions, and all sequences of enter, exit, items and next", "All schedules of several generators and re-entries.", [K+"TarGzipBytesLinearKeyValueSource", K+"InterpretedLinearKeyValueSource", K+"KeyValueLinearSource.interpret_values"], "State machine of open files and generators; invariant over histories.")
P("C86", "Annotated text can be read back",
  "If the text contains no '<', labels no blank or '>' (nor a leading '/'), attribute keys no '=' or '>' and values no '\"' or '>', then a reader of markup that knows nothing of how it was made gets the text back from the string annotated_text returns; and if moreover the spans clipped to the snippet are distinct and nested or disjoint, it finds exactly one element for each annotation overlapping the snippet, with its label, its attributes and exactly the offsets of its clipped span.  The order in which attributes are given never matters.  (Nothing is escaped: texts with markup in them, and two annotations with the same span, cannot be read back.)",
  "all texts, annotation collections and snippet offsets", "Round trip over all inputs.", [A+"HTMLStyleAnnotationFormatter.annotated_text", A+"to_start_tag", A+"to_end_tag"], "An independent reader as a state machine over characters; induction over properly nested markup.")
P("C87", "windowed, drop, non_none, only and get_only are lazy on any iterator, however it is used",
  "Let it be an iterator, finite or endless, possibly raising, and let a program call next on windowed(it, w) (or drop(it, n)) and on it itself in any order.  The windows given so far are the first windows of the elements the generator took, in order; for k windows it takes at most k+w-1 elements (exactly, on an endless iterator, where every request gives a window of length w); it ends only if it ended, having given every window (every suffix too with partial_windows), raises only what it raised, and after its end never touches it again.  drop gives the elements it took without the first n and takes no more than needed.  non_none gives the elements it took that are not None and for each request takes elements only up to the first that is not None (a request returns iff there still is an answer other than None).  only and get_only (on iterators without a length) ask at most twice, also on endless iterators, and raise what it raises.  No element is lost or delivered twice.",
  "all iterators (as the outcome of each __next__ call), all window sizes, all schedules of calls", "All schedules and endless inputs.", [I+"windowed", I+"drop", I+"_complete_windows", I+"_possibly_incomplete_windows"], "Generators as state machines; invariant over the trace of any schedule.")
P("C88", "Only bounded ranges survive pickling",
  "A range, range set or range map that has been pickled and unpickled (or deep-copied) still contains (looks up) the same values. But the copy of a range without a lower (upper) bound claims to have one, asking for its endpoint is a ValueError, it is not equal to the original, and a range with bounds cannot be asked whether it encloses it (ValueError). A range set with two or more ranges, one of them without lower bound, cannot be unpickled at all (ValueError); any other can, and is equal to the original exactly if all its ranges are bounded on both sides. A range map can be unpickled exactly if all its keys are bounded on both sides or it has a single key, which has no lower bound; it is equal to the original exactly if all keys are bounded on both sides.",
  "all ranges, all histories of range sets, all range maps, over any linearly ordered endpoint type", "All ranges, sets and maps.", [R+"_BelowAll", R+"_AboveAll", R+"_Cut.compare_to", R+"RangeSet.__getstate__", R+"_SortedDictRangeSet.__setstate__", R+"ImmutableRangeMap.__reduce__"], "Cuts with instance numbers; the operations with errors proved equal to the main model for instance 0; case analysis on the first unbounded key.")
AU = "vistautils/attrutils.py:"
P("C89", "Attributes declared with attrutils are what their declarations promise",
  "Constructing an object of a class whose attributes are declared with attrutils succeeds exactly if the arguments fit the parameters (all attributes but private builders, by position or keyword) and every attribute can be what is promised: an instance of one of the classes named, at whatever depth of tuples (attrib_instance_of, defaults included), or None (attrib_opt_instance_of, None if not given); the argument or what the factory returned for this object; the immutable collection of the argument, or the empty one for None or no argument (attrib_opt_immutable). Otherwise the exception is a TypeError or one raised by a factory or collection type. In any history of constructor calls no builder is shared by two objects. A declaration is a ValueError exactly if the type is not an immutable collection, else a TypeError exactly if an argument is given in two ways, among them any positional default for attrib_opt_instance_of; a class cannot be defined (ValueError) exactly if a required attribute follows one that is not.",
  "all classes with any declarations, all arguments, all factories with any state, all histories of constructor calls", "All classes, arguments and histories.", [AU+"attrib_instance_of", AU+"attrib_opt_instance_of", AU+"attrib_factory", AU+"attrib_immutable", AU+"attrib_private_immutable_builder", AU+"attrib_opt_immutable", AU+"opt_instance_of", AU+"_empty_immutable_if_none"], "Model of the used part of attrs; induction over the attributes and over the history.")
P("C90", "The fully-qualified name of a class evaluates to the class",
  "fully_qualified_name is the name of the module, a dot and the (nested) name of the class; the name alone for built-in classes; for a module its name. Two classes not nested in classes have the same name exactly if they have the same module and name (a nested class can have the name of a class of another module, or of a module: counterexample). In a Python that follows the rules for dotted names and imports, Parameters.evaluate on the fully-qualified name of a class at the top level of an importable module is that class if it has the expected type, else a ParameterError, provided the context defines no package of the module; on the name of a built-in class likewise. Where the context (by default the local variables of evaluate, such as name or context) defines the first word, that is what the text means, so a class of a package called name is a ParameterError (counterexample). A class nested in a class is always a ParameterError (counterexample), except in a namespace that lists its module under import.",
  "all classes, modules, parameter trees, contexts, interpreters that follow the rules", "All modules, classes and contexts.", ["vistautils/class_utils.py:fully_qualified_name", "vistautils/class_utils.py:fully_qualified_name_of_type", PA+"Parameters.evaluate"], "Laws of dotted names as hypotheses on the interpreter (with an interpreter satisfying them); induction over packages on top of C77.")
P("C91", "Checkpoints survive programs that are killed",
  "For every history of programs using the same checkpoint directory one after the other, in which each call (from_directory, set, reset_all) either completes or is killed at any point between its system calls: a name whose set returned is a checkpoint, unless a reset_all was begun since; a name that is a checkpoint was set, or its set was begun, since the last completed reset_all (or was there at the start); nothing outside the directory changes except that directories above it may be made. Whatever happened, a new program gets the checkpoints and all its calls succeed. A reset_all that was killed can leave some of the checkpoints and remove others, and can leave the directory missing, in which case set raises until from_directory is called again (counterexamples).",
  "all histories of calls, all points at which a process is killed, all directories and file systems", "Every interleaving of completed and killed calls.", ["vistautils/checkpoints.py:Checkpoints.from_directory", "vistautils/checkpoints.py:_CheckPointDirectory.set", "vistautils/checkpoints.py:_CheckPointDirectory.reset_all", "vistautils/checkpoints.py:_CheckPointDirectory.__contains__"], "Programs with the set of states in which they can be killed; an invariant by induction over the history.")
P("C92", "What a killed directory sink leaves",
  "A session of a directory key-value sink over an empty directory, killed at any point between its system calls, changes nothing outside the directory, and either the directory is missing (killed while entering) or for some first calls of put, which have returned: the last value of each of their keys is in its file in full (unless a call for the same key was under way); the file of the call under way is as before or holds a beginning of the value; the index is missing unless all calls have returned, and then holds a beginning of what belongs there; there is nothing else. Without the index, opening the directory as a source raises OSError. If a call had returned, or the directory is missing, running the program again raises OSError on entering the sink and changes nothing. A process killed while leaving the sink can leave an index that silently lacks keys or sends a key to the value of another (counterexamples).",
  "all sequences of puts with file-name keys, all points at which the process is killed, all file systems", "Every crash point of every session.", [K+"_DirectoryCharKeyValueSink", K+"_DirectoryBytesKeyValueSink", K+"KeyValueSource.from_doc_id_to_file_map", IO+"write_doc_id_to_file_map"], "Programs with the set of states in which they can be killed; induction over the calls on top of the session invariant of C62.")
P("C93", "What a killed write to a file leaves",
  "CharSink.to_file(p).write(text) and ByteSink.to_file(p).write(data), killed at any point between their system calls: the file is as before or holds a beginning of what was to be written, missing directories above it may have been made, and nothing else is changed. If the write would have succeeded, running it again after the kill succeeds and leaves what an undisturbed write leaves; if it would have raised, nothing is changed. The write is not atomic: the old content can be gone with nothing of the new there (counterexample).",
  "all paths, contents, file systems and points at which the process is killed", "Every crash point.", [IO+"CharSink.to_file", IO+"ByteSink.to_file", IO+"_FileCharSink", IO+"_FileByteSink"], "Programs with the set of states in which they can be killed; case analysis over the crash points on top of the file system model.")
P("C94", "Processes can share a checkpoint directory",
  "Any number of processes, each getting the checkpoints of the same directory and then setting names and asking for names, under every schedule of their system calls (also when they make the directory and its parents at the same time): no call raises; an answer yes is only given for a name that was there at the start or whose set has begun; an answer no only if, when the question began, the name was not there at the start, no set of it had returned and nobody had been told yes; what is there at any time are at least the names whose set returned and at most those whose set has begun; nothing there is lost or changed, and outside the directory only directories above it are made. Every schedule is finite and ends with all processes done. A process alone does what C68 says, and can be killed only in the states of C91. With reset_all it is otherwise: a set between the removal of the directory and its making raises (counterexample).",
  "all numbers of processes, all programs without resets, all schedules of system calls, all file systems", "Every interleaving of system calls.", ["vistautils/checkpoints.py:Checkpoints.from_directory", "vistautils/checkpoints.py:_CheckPointDirectory.set", "vistautils/checkpoints.py:_CheckPointDirectory.__contains__", "vistautils/checkpoints.py:_CheckPointDirectory.reset_all"], "Programs as trees of system calls; rely-guarantee (the file system only grows) and an invariant over all interleavings; a measure for termination.")
P("C95", "A program writes the same through every character sink",
  "Let the body of a with block on a sink's open() only write: pass texts to write and writelines, flush, ask whether it may write or is at a terminal, and decide by nothing else (not by what write returns). Then it ends with the same result or exception whether the sink is to_nowhere(), to_string() or to_file(p) (unless something is in the way of the file: OSError and no change); after it, also if it raised, the last string written, or the content of the file, is exactly the texts it wrote one after the other; to_nowhere leaves nothing, takes texts whatever was done before, and raises (NotImplementedError) exactly when asked to read, to seek, to truncate or for its buffer. sink.write(data) is such a block. to_nowhere is noticed by a program that looks at closed (always true), at what write returns (None), or that passes writelines an iterator that raises (never run) (counterexamples).",
  "all bodies (as trees of calls and replies), texts, earlier uses of the sink, file systems", "All programs.", [IO+"CharSink.to_nowhere", IO+"CharSink.to_string", IO+"CharSink.to_file", IO+"CharSink.write", IO+"_NullCharSink", IO+"StringCharSink", IO+"_FileCharSink"], "Bodies as interaction trees; induction over the derivation that a body only writes.")
P("C96", "What a killed zip sink leaves",
  "Let sessions of zip sinks (with the default keys, overwriting or not) run one after the other on a path without a file, each to its end or killed at any point, also within a write. Each killed one leaves what was there, or a file that is not a zip file, or exactly what it should have left; each one that runs to its end leaves what it should, where an unreadable file counts as empty. While the path holds nothing readable every source raises on entering; otherwise a source serves exactly that store, and in any case never a value that was not put for its key; after an overwriting session that runs to its end, exactly what that session put. Whatever was killed, a further session can be run, and its puts raise (ValueError) exactly for the keys that are there. But a killed session, appending or not, can lose everything put by earlier completed ones, and the next appending session then succeeds without a sign of it (counterexample).",
  "all histories of completed and killed sessions, all kill points, all values, all allowed keys", "Every kill point in every history.", [K+"_ZipKeyValueSink", K+"_ZipFileKeyValueSource.__enter__", K+"KeyValueSink.zip_character_sink", K+"KeyValueSink.zip_bytes_sink"], "The file as a list of blocks written one after the other; the set of contents at the kill points; an invariant by induction over the history on top of the session theorem of C55.")
P("C97", "The life of a zip sink and of a zip source",
  "A zip sink can be made unless it has a function to read keys and none to write them (ValueError). Whatever is called on one sink object, in whatever order, and whatever else happens to the file in between (not entering it while it is open): put before entering raises AssertionError, leaving AttributeError; put(k, None), put of a key in the list of the file when the sink was entered or of a key that got past these checks before in the life of the object, put of something that is neither a string nor bytes, and put after leaving raise ValueError; an exception of the file name function is passed on; any other put succeeds; leaving twice raises ValueError if there is a function to write keys. Whenever the sink is not open, a source for the path offers exactly the values put successfully since the sink was last entered (and, appending, those that were there), and lists exactly the keys the sink refuses. So an appending sink object may be used for several sessions like a new one each time; an overwriting one may not: it refuses the keys of its earlier sessions and lists them without values (counterexample), as is a key whose put failed. A source offers the store it was last entered with, only until it is left: otherwise its methods and leaving raise AssertionError; entering without a file raises OSError and changes nothing. With any keys function, or None, and whatever is in the files: entering raises what the keys function raises, and the source is then open all the same; while it is open keys() is what the keys function last returned (None if it is None or has only raised) and the values are those of the file it was last entered with. (So after a failed entering a used source lists the keys of the earlier file: counterexample.)",
  "all sequences of calls on a sink or source object, all changes of the file in between, all values and all keys without line feed", "Every history of an object.", [K+"_ZipKeyValueSink", K+"_ZipFileKeyValueSource", K+"KeyValueSink.zip_character_sink", K+"KeyValueSink.zip_bytes_sink", K+"KeyValueSource.zip_character_source", K+"KeyValueSource.zip_bytes_source"], "Refinement of an abstract machine with three phases, by induction over the history.")
P("C98", "Directory sinks, whatever is done with them",
  "Any number of sink objects for one directory, their methods called in any order, also outside with blocks, and the directory possibly emptied by somebody else in between (the directory holds only files, or is missing and could be made; keys are plain file names): put and leaving a sink always succeed, making the directory if it is missing; put writes the value to the file of its key; leaving writes to _index exactly the keys put through this object since it was last entered successfully, in order, with the paths of their files; entering succeeds iff the directory is there and empty, and otherwise raises OSError and changes nothing; nothing outside the directory changes except that directories above it are made. So unless somebody empties the directory, entering succeeds only before anything has been put or a sink left, and a source made from _index serves exactly the keys put through the object left last, up to then, each with the last value put for it through any object. (So there is no second with block, a value put after the block is in no source, and of two sinks for a directory one loses its keys: counterexamples.)",
  "all sequences of calls on any number of sink objects for a directory, all keys that are plain file names, all values, all states of the file system", "Every history of the objects.", [K+"_DirectoryCharKeyValueSink", K+"_DirectoryBytesKeyValueSink", IO+"write_doc_id_to_file_map"], "Refinement of a deterministic abstract machine, by induction over the history; the consequences from the machine.")
P("C99", "Parameters do not share dictionaries with the program",
  "Dictionaries are objects that may be reachable in several ways and may be changed later. from_mapping on a nested dictionary (in which no Parameters object has a dictionary in it) changes no dictionary, has the outcome that the nested dictionary as it looks at the time of the call says (unless it is nested deeper than Python's limit of recursion; a dictionary that contains itself at some depth is never converted), and the object made looks the same forever, whatever is done to any dictionaries afterwards. The same holds of from_key_value_pairs with any values, provided no name is assigned below the name of an earlier pair whose value is a dictionary; without that proviso it may change a dictionary of the caller, or set two parameters with one pair (counterexamples). as_nested_dicts changes no dictionary that was there, and all dictionaries in its result, at every depth, are new, so the result may be changed without an effect on the parameters or on other results. (Leaves are kept as they are; lists among them are shared.)",
  "all heaps of dictionaries (shared, nested, cyclic), all lists of pairs, all later changes", "Aliasing: every heap and every later change.", [PA+"Parameters.from_mapping", PA+"Parameters.from_key_value_pairs", PA+"Parameters.as_nested_dicts"], "Refinement of the value model by a heap model: induction over what a value shows, and for the pairs a loop invariant with the (injective) positions of the dictionaries made.")
P("C100", "Equality and hash of Parameters",
  "Two Parameters objects are equal exactly if their namespace prefixes are the same and they have the same keys with the same values, at every depth and whatever the order of the keys (numbers compare as numbers: True == 1 == 1.0). == is an equivalence. Equal objects agree on `in`, on which names can be looked up, on string(...) and, up to ==, on the values and namespaces found. from_mapping of two nested dictionaries that differ in the order of keys only raises for both or gives equal objects, and conversely equal objects come from equal dictionaries and have equal as_nested_dicts. unify with equal arguments raises the same or gives equal results. Equal objects have the same hash; hash raises TypeError exactly if there is a list or a mapping among the values at any depth. (Equal objects can differ for boolean and integer, and in the order of namespaced_items; a namespace is not equal to the object made from the same dictionary, as it has a prefix: counterexamples.)",
  "all parameter trees, nested dictionaries, names, hash functions", "All trees, all orders of keys at all depths.", [PA+"Parameters", PA+"Parameters.from_mapping", PA+"Parameters.as_nested_dicts", PA+"Parameters.unify", PA+"Parameters.get"], "== and hash of the attrs class as structural recursions on values; induction on values; == of the dictionary inside as for dict, hash as for the frozen set of its items.")
P("C101", "The scripts on key-value stores, from their parameters",
  "split_key_value_store and downsample_key_value_store, run with parameters whose namespace input describes a zip store or (with type _doc_id_binary_source_from_params) a document map all of whose files are there, do what C63, C65 and C66 say of the store described, also though the zip file or the files are read while the outputs are written, provided none of the outputs is one of these files; the input is unchanged afterwards. Splitting and then joining with the list of slices gives a zip store with the same entries. Both or neither of num_slices and explicit_split, or an input file that does not exist, raise ParameterError (see C47 for the exception when it is a namespace) and change nothing. With the documented input type file-map both scripts report success and all outputs are empty, whatever the input holds (counterexamples).",
  "all parameter trees describing a store, all stores with plain keys, all shuffles, all file-system states in which the outputs can be made", "All stores and file systems.", [SC+"split_key_value_store.py:main", SC+"downsample_key_value_store.py:main", SC+"join_key_value_stores.py:main", K+"byte_key_value_source_from_params", K+"byte_key_value_linear_source_from_params", K+"_ZipFileKeyValueSource", K+"_doc_id_binary_source_from_params"], "Composition of the models of the parameters, the sources and the scripts; the sources are asked in the current state of the file system.")
P("C102", "Killed scripts on stores lose nothing, and can be run again",
  "However often split_key_value_store, downsample_key_value_store or join_key_value_stores has been started and killed, between any two system calls: everything but the outputs and directories made for them is as before (in particular the input), each output is as it was before, or a file that is no zip file (opening it as a store raises), or the finished store (after a join that would raise because of a key in two inputs: a store with entries of the inputs only); and the next run that is not killed gives exactly the result, or exception, of a first run that was never killed. A join into a directory (output.type file-map) that was killed has changed nothing outside of it, and left beginnings of values of the inputs under their keys, whole values (and, if no key occurs in two inputs, all of them) if there is anything of the index; while the directory is still empty, the next run does what the first would have done, else every further run raises OSError (ParameterError if the directory is missing) and changes nothing. Not kept: what was at an output before is lost as soon as the output is opened, and a second run of a finished even split that is killed while it writes the list of slices leaves a list that ends early while all slices are there: joining by that list reports success without the entries of the unlisted slices (counterexamples).",
  "all parameter trees, stores with plain keys, shuffles, file-system states in which the outputs can be made, all numbers of killed runs and all kill points", "All crash points and histories of crashes.", [SC+"split_key_value_store.py:main", SC+"split_key_value_store.py:_split_into_even_slices", SC+"split_key_value_store.py:_explicit_split", SC+"downsample_key_value_store.py:main", SC+"join_key_value_stores.py:main", K+"_ZipBytesFileKeyValueSink"], "Programs with the set of states in which they can be killed; a program logic for what a program touches, killed or not; an invariant by induction over the killed runs.")
P("C103", "Killed conversions lose nothing of their input, and can be run again",
  "However often tar_gz_to_zip or directory_to_key_value_store has been started and killed, between any two system calls: the input (tar file, directory) is as before. Streaming tar_gz_to_zip: only the zip file is changed, it is as before, missing, no zip file, or finished, and the next run that is not killed gives the result of a first run. With --dont-stream also directories of members and files with a beginning of a member's content may be left; the next run that is not killed copies all members and removes those files. directory_to_key_value_store to a zip file: the output is as before, no zip file, or a store with entries of the files only, and the next run gives the result, or exception, of a first run. To a directory: every file left in it holds a beginning of the content of a file with that key, all are complete once there is an index; if the directory is left existing and empty the next run succeeds like a first one; otherwise it and every further run raises and changes nothing. Not kept: an older zip file is lost at once, a killed --dont-stream leaves extracted files behind, and a killed run can leave the output directory missing, after which every run is a ParameterError (counterexamples).",
  "all tar files, directories, parameter trees, file-system states in which the outputs can be made, all numbers of killed runs and all kill points", "All crash points and histories of crashes.", [SC+"tar_gz_to_zip.py:main", SC+"directory_to_key_value_store.py:main", K+"_ZipBytesFileKeyValueSink", K+"_DirectoryBytesKeyValueSink"], "Programs with the set of states in which they can be killed; an invariant of the states left by killed runs; the next run from any such state equals a first run.")
P("C104", "Lists in parameters are passed on as they are",
  "Lists are objects that the program may change at any time. from_mapping, from_key_value_pairs, unify (also with a mapping), namespace, lookup, namespaced_items and as_nested_dicts never read or change what a list holds: the lists in their results are the list objects of their arguments, in the places in which their outcome with opaque objects has them, so whatever the lists hold at any later moment, each result looks like what would be made from the arguments as they look then; the exceptions, and what is in the parameters, do not depend on what lists hold. arbitrary_list and optional_arbitrary_list give the list object itself. So Parameters are no snapshot: changing the list that went in, or the list that an accessor gave, changes the parameters (counterexample).",
  "all mappings, pairs, parameters, names and defaults with list objects in any places, and all contents of the lists at all moments", "All later changes of any list.", [PA+"Parameters.from_mapping", PA+"Parameters.unify", PA+"Parameters.as_nested_dicts", PA+"Parameters.namespaced_items", PA+"Parameters.arbitrary_list"], "Lists as opaque objects; every function commutes with replacing each object by what it holds, by induction over values.")
P("C105", "Values that cannot be compared",
  "Where comparing two values of different kinds (an int and a str) raises TypeError: making a range raises TypeError iff its two endpoints are of different kinds; `v in range` raises TypeError iff v is of another kind than an endpoint. Of two ranges whose endpoints are of the same kind all operations do what they do where everything can be compared; of two ranges whose endpoints are not, intersection and intersects raise TypeError, and is_connected, encloses and span raise TypeError unless infinite sides alone settle the answer, which is then correct. Adding a range to a set raises TypeError iff the range is not empty and some endpoint of it is of another kind than some endpoint in the set, and the set is then as before; add_all stops at the first such range, those before it have been added. So, whatever is attempted with values of whatever kinds, a set is always the result of the calls that succeeded, its endpoints are all of one kind, and everything proved of range sets holds of it. `v in set` and range_containing raise TypeError iff some endpoint in the set is of another kind than v; encloses on a set raises TypeError or, where an infinite side settles it, gives False. A range map can be made iff all endpoints of its keys are of one kind and it can be made where everything can be compared; looking up a value of another kind raises TypeError. (A set of integer ranges that covers everything contains every string, and accepts ranges of strings; rightmost_containing_or_below of a string may give a range of integers: counterexamples.)",
  "all endpoint types with any partition into kinds, linearly ordered within each kind; all ranges, all histories of calls with exceptions caught, all values", "All histories, all kinds; a raise in the middle of a change must not leave half of it.", [R+"_Cut.compare_to", R+"Range", R+"_MutableSortedDictRangeSet.add", R+"MutableRangeSet.add_all", R+"_MutableSortedDictRangeSet.clear", R+"ImmutableRangeMap", R+"_value_below", R+"_value_at_or_below", R+"_clear"], "The range code again with every comparison in the order in which it is made, and state returned also when it raises; simulation of the model of C08 on comparable values; induction over the history.")
P("C106", "Zip sinks with any key functions",
  "A zip sink with any function to read and any to write keys (which may raise, and may first add entries to the archive, if not named like those of keys; a function to read without one to write is a ValueError), and any history of enter, put and exit on one sink object with exceptions caught, never entered while open: a put returns iff the sink is open, the value is str or bytes, the key is not refused and the file name function does not raise, and otherwise raises what C106_put says (AssertionError before the sink was first entered, ValueError, or what the file name function raises). A key is refused iff the reading function told of it or it was passed to put, not with None, after the sink was first entered. Entering calls the reading function with an archive that has the values at the path (empty, overwriting), and leaving calls the writing function with an archive that has the values put and with exactly the refused keys, each once; both pass on what the function raises, and the sink is then open all the same. Once the sink has been left without an exception, or the object is thrown away, the archive at the path gives exactly the values it had (appending) and those put successfully since the sink was entered; nothing put successfully is lost, even if leaving raises again and again. While the sink is open the file cannot be read, or, appending and with nothing put, is as before. If the reading function raises without having added entries, an appending sink leaves the store as it was, but an overwriting sink has emptied it although the block never ran (counterexample). The default key functions meet the conditions.",
  "all key functions and file name functions that give the keys in use different names, all histories of calls, all files at the path", "All histories with exceptions at any call, all user functions.", [K+"_ZipKeyValueSink.__init__", K+"_ZipKeyValueSink.put", K+"_ZipKeyValueSink.__enter__", K+"_ZipKeyValueSink.__exit__"], "The sink object with the file followed through each call, key functions as arbitrary functions that give the entries they add and an outcome; an invariant over the list of calls and their outcomes.")
P("C107", "Ranges of Python numbers: equal numbers that are different objects, and NaN",
  "With endpoints and values that are Python numbers, where different objects can be equal (1, 1.0) and a number can be NaN (neither less than, equal to nor greater than any number): which factories raise ValueError and which values the ranges contain is as C107_factories and C107_unbounded say for all numbers, NaN included. NaN is in a range iff the range has no lower bound; a range with a NaN endpoint is not equal to itself and not empty. Without NaN endpoints, everything a range, a range set after any history, or a range map does is what it does with the numbers the objects stand for, whichever of several equal objects are used; equal ranges have equal hashes (if equal numbers have) and contain the same values. A range set contains a value, NaN included, iff one of the ranges added since the last clear does; range_containing and rightmost_containing_or_below of NaN are the member without lower bound, if any. A range map raises ValueError iff a key is empty or two keys touch or overlap, and m[v], for any v including NaN, is the value of the key that contains v, None iff no key does. Once a range with upper endpoint NaN is in a range set, adding another range can remove values from the set (counterexample).",
  "all types of numbers with NaN and equal but different objects, all endpoints and values, all histories of range sets and all mappings without NaN endpoints", "All numbers, all histories.", [R+"_Cut", R+"_BelowValue", R+"_AboveValue", R+"Range", R+"RangeSet", R+"MutableRangeSet.add", R+"ImmutableRangeMap"], "The code of ranges, range sets and range maps once more over objects that stand for an optional number; a simulation relation to the model over a linear order (C01 to C23), and NaN by itself.")
P("C108", "Number parameters that are NaN or infinite",
  "floating_point and integer return a value iff it is found at the name (or is the default), has the type asked for (True and False count as integers) and passes the valid range if there is one, and otherwise raise ParameterError (see C47 for the exception when it is a namespace). For floats that may be NaN or infinite and ranges with any numbers as endpoints, which values pass is as C108_valid_range says for each way of making a range: infinities count as the numbers they are, and for NaN every comparison is false. So NaN passes iff there is no valid range or the valid range has no lower bound: floating_point(name, Range.at_most(4)) returns NaN (counterexample to the documented check). optional_floating_point does the same if the name is there, and otherwise gives the default, None if the default equals 0 (also -0.0), and ParameterError if the default is a float that does not pass.",
  "all parameters, names, defaults, valid ranges and float values including NaN and infinities", "All values and ranges.", [PA+"Parameters.floating_point", PA+"Parameters.optional_floating_point", PA+"Parameters.integer", R+"Range.__contains__"], "The accessors with the lookup of C47 and the ranges of C107; a float object stands for a number with infinities or for none.")
P("C109", "Directory sinks with keys that are paths",
  "A directory sink stores the value of a key that is a relative path without '..' in the file below its directory that the key names, making the directories in between. In an empty directory, the calls of put in a session succeed up to the first key whose file would lie below the file of an earlier key, or be a directory above one; that call raises OSError, which comes out of the session. So a session succeeds iff no two keys clash so. In both cases nothing outside the directory is changed, and the source read from the index serves exactly the keys put, each with the last value put for any key that names the same file (text with its line ends translated), and entering a sink for the directory again raises OSError and changes nothing. Without the restriction this fails: a key with '..' or an absolute one overwrites a file outside the directory, and a key in a directory _index makes writing the index fail (counterexamples).",
  "all file systems, directories and sequences of calls with keys that are relative paths without '..', without tab, line feed or carriage return, without white space at the ends of the key and of its last name, and whose first name is not _index", "All sequences of keys, and all file systems.", [K+"_DirectoryCharKeyValueSink.put", K+"_DirectoryCharKeyValueSink.__exit__", K+"_DirectoryBytesKeyValueSink.put", K+"_DirectoryBytesKeyValueSink.__exit__"], "The directory sinks and document maps of C62 on the file system model, with the paths of keys resolved by the pathlib model.")
P("C110", "Parameters, dictionaries and lists that all may change",
  "Dictionaries and lists are objects that may be in each other, be reachable in several ways, and be changed at any time. from_mapping on a dictionary (in which no Parameters object has a dictionary in it) and from_key_value_pairs (when no name is assigned below that of an earlier pair whose value is a dictionary) have at any later moment the outcome that they would have for the dictionaries as they were at the time of the call, with the lists in them (outside other lists) as they look at that later moment; in particular at the time of the call the object looks like what would be made from what the arguments look like, everything in them included. The result of as_nested_dicts looks, as long as its own new dictionaries are not changed, like the nested dictionary of what the parameters look like at that moment. So a dictionary in a list is neither converted nor copied: changing it changes the parameters (counterexample).",
  "all heaps of dictionaries and lists at the time of the call, with cycles and sharing, and all heaps at all later moments", "All heaps, histories and values.", [PA+"Parameters.from_mapping", PA+"Parameters.from_key_value_pairs", PA+"Parameters.as_nested_dicts"], "The heap of dictionaries of C99 with list objects as leaves; what a value looks like at a moment is an inductive relation through both. C99 and C104 are combined by a parametricity argument: which lists are in the outcome is decided by how the arguments look.")
P("C111", "Text that UTF-8 cannot encode",
  "A string with a lone surrogate cannot be encoded. Writing strings one after the other to a file made by CharSink.to_file raises ValueError exactly if one of them has a surrogate; the file then holds exactly the strings before it, and what it held before is lost. A put of such a string to a directory sink raises ValueError and leaves an empty file; whether that ends the session or the program catches it and goes on, the directory then serves the keys of the calls that did not raise, but a key whose last put raised, after one that did not, has the empty string (silently). A put to a zip sink raises ValueError and changes no value, but the key is listed afterwards, and looking it up raises KeyError.",
  "all strings with and without surrogates, all lists of strings and all sessions with them, all file systems and archives", "All strings, sessions and file systems.", [IO+"CharSink.to_file", IO+"CharSink.write", IO+"_FileCharSink.open", K+"_DirectoryCharKeyValueSink", K+"_ZipKeyValueSink.put"], "Strings over the characters and the 2048 surrogates. Directory sessions are compared with a sink in which the failing calls put nothing (C109); zip sessions are runs of the machine of C97.")
P("C112", "Directory sinks when the operating system fails",
  "If calls of put on a directory sink (for text or bytes) fail with OSError, at whatever point (making a directory, opening the file, or writing, when some of the bytes are in the file) and that ends the session or the program catches it, then leaving the sink writes an index of exactly the keys of calls that did not fail. Each is served with what is in its file: the value put last, unless a later call for the same file failed while writing; then the first bytes of that value, silently. Failures before anything is written, or followed by a call that does not fail, do no harm. Nothing outside the directory is changed.",
  "all sequences of calls with any keys (of which none is a path above another), values and failures, all file systems; entering and leaving the sink does not fail", "All failure points in all histories.", [K+"_DirectoryCharKeyValueSink", K+"_DirectoryBytesKeyValueSink", IO+"CharSink.to_file", IO+"ByteSink.to_file", IO+"CharSink.write", IO+"ByteSink.write"], "Each call has a fault, which says where it fails; an invariant over the session says which files and directories there can be (by the keys of all calls), and what is in the files.")
