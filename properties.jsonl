{"id": "C01", "title": "Range factories contain exactly the documented values", "statement": "Each of Range.open/closed/closed_open/open_closed/less_than/at_most/greater_than/at_least/all returns a range r such that, for every v, `v in r` iff v satisfies the documented inequality (e.g. a < v <= b for open_closed); the two-endpoint factories raise ValueError exactly when upper < lower, or (open only) when upper == lower.", "quantifier": "all linearly ordered endpoint types, all endpoints / ranges over them", "why_tests_cant": "A test fixes a few endpoints; the claim is for every pair of endpoints and every probe value of every ordered type.", "anchors": ["vistautils/range.py:Range.open", "vistautils/range.py:Range.closed", "vistautils/range.py:Range.closed_open", "vistautils/range.py:Range.open_closed", "vistautils/range.py:Range.less_than", "vistautils/range.py:Range.at_most", "vistautils/range.py:Range.greater_than", "vistautils/range.py:Range.at_least", "vistautils/range.py:Range.all", "vistautils/range.py:Range.__contains__", "vistautils/range.py:Range.__attrs_post_init__", "vistautils/range.py:_Cut.compare_to"]}
{"id": "C02", "title": "Range.encloses is a partial order that implies containment", "statement": "encloses is reflexive, transitive and antisymmetric (up to ==) on ranges; r.encloses(s) implies every value of s is in r; over a dense order without end points the converse holds for every s that is not empty.", "quantifier": "all linearly ordered endpoint types, all endpoints / ranges over them", "why_tests_cant": "Order laws quantify over triples of ranges of every shape.", "anchors": ["vistautils/range.py:Range.encloses"]}
{"id": "C03", "title": "is_connected means a common enclosed range exists", "statement": "r.is_connected(s) iff some range is enclosed by both; it is reflexive and symmetric; Range.intersects returns the same answer as is_connected (so it is True for ranges that merely touch).", "quantifier": "all linearly ordered endpoint types, all endpoints / ranges over them", "why_tests_cant": "Existential over all ranges.", "anchors": ["vistautils/range.py:Range.is_connected", "vistautils/range.py:Range.intersects"]}
{"id": "C04", "title": "intersection is the greatest common sub-range, defined iff connected", "statement": "r.intersection(s) raises ValueError iff r and s are not connected; otherwise it returns a range enclosed by both that encloses every range enclosed by both, contains v iff both do, and is commutative, associative (including definedness), idempotent, with identity Range.all().", "quantifier": "all linearly ordered endpoint types, all endpoints / ranges over them", "why_tests_cant": "Lattice laws over all pairs/triples.", "anchors": ["vistautils/range.py:Range.intersection"]}
{"id": "C05", "title": "span / create_spanning give the least enclosing range", "statement": "r.span(s) always succeeds, encloses both, and is enclosed by every range enclosing both; it is commutative, associative and idempotent; create_spanning(rs) raises ValueError iff rs is empty and otherwise is the least range enclosing every member.", "quantifier": "all linearly ordered endpoint types, all endpoints / ranges over them, all finite sequences of ranges", "why_tests_cant": "Quantifies over all enclosing ranges and all sequence lengths.", "anchors": ["vistautils/range.py:Range.span", "vistautils/range.py:Range.create_spanning"]}
{"id": "C06", "title": "Range equality, hashing, emptiness, bounds and descriptions are consistent", "statement": "Equal ranges have equal hash, contain the same values and report the same bounds; is_empty holds exactly for ranges [v..v) and (v..v], and an empty range contains no value; lower_endpoint/upper_endpoint raise ValueError (and the bound types AssertionError) exactly when has_lower_bound/has_upper_bound is False; bound types report open/closed correctly; repr always works, and different ranges have different descriptions if endpoints are rendered differently, without dots and not as infinities (counterexample otherwise).", "quantifier": "all ranges over any linearly ordered endpoint type", "why_tests_cant": "Hash/eq consistency is over all pairs.", "anchors": ["vistautils/range.py:Range.__eq__", "vistautils/range.py:Range.__hash__", "vistautils/range.py:Range.is_empty", "vistautils/range.py:Range.lower_endpoint", "vistautils/range.py:Range.lower_bound_type"]}
{"id": "C07", "title": "Ranges are convex", "statement": "If c1 <= c2 <= c3 and c1 in r and c3 in r then c2 in r, for every range r that can be constructed.", "quantifier": "all linearly ordered endpoint types, all endpoints / ranges over them", "why_tests_cant": "Over all triples.", "anchors": ["vistautils/range.py:Range.__contains__"]}
{"id": "C08", "title": "Range sets stay in normal form under every history", "statement": "After any history the ranges reported by as_ranges() are in increasing order, none is empty, no two are connected, and len/is_empty agree with them.", "quantifier": "all endpoint types, all finite histories of add / add_all / clear on a mutable range set, all query arguments", "why_tests_cant": "Invariant over unbounded operation histories.", "anchors": ["vistautils/range.py:_MutableSortedDictRangeSet.add", "vistautils/range.py:_MutableSortedDictRangeSet.clear", "vistautils/range.py:_SortedDictRangeSet.as_ranges", "vistautils/range.py:_clear", "vistautils/range.py:_value_below", "vistautils/range.py:_value_at_or_below"]}
{"id": "C09", "title": "Range-set membership is exactly the union of what was added", "statement": "After any history, v in the set iff v is in some range added since the last clear.", "quantifier": "all endpoint types, all finite histories of add / add_all / clear on a mutable range set, all query arguments", "why_tests_cant": "Refinement over histories.", "anchors": ["vistautils/range.py:_SortedDictRangeSet.__contains__", "vistautils/range.py:_MutableSortedDictRangeSet.add", "vistautils/range.py:_MutableSortedDictRangeSet.clear"]}
{"id": "C10", "title": "add yields the minimal normal-form set; insertion order is irrelevant", "statement": "After adding ranges rs (any order), the set encloses each non-empty one and every pairwise-disconnected family of ranges that encloses all of them also encloses every member of the set; hence any permutation of the same adds produces an equal range set with the same as_ranges().", "quantifier": "all endpoint types, all finite histories of add / add_all / clear on a mutable range set, all query arguments", "why_tests_cant": "Universal over competing families and permutations.", "anchors": ["vistautils/range.py:_MutableSortedDictRangeSet.add", "vistautils/range.py:MutableRangeSet.add", "vistautils/range.py:RangeSet.__eq__"]}
{"id": "C11", "title": "encloses / encloses_all / range_enclosing_range are exact", "statement": "rs.encloses(r) iff some member encloses r; encloses_all(rs') iff every range is; range_enclosing_range returns that member, or None iff there is none.", "quantifier": "all endpoint types, all finite histories of add / add_all / clear on a mutable range set, all query arguments", "why_tests_cant": "All queries, all histories.", "anchors": ["vistautils/range.py:_SortedDictRangeSet.encloses", "vistautils/range.py:RangeSet.encloses_all", "vistautils/range.py:_SortedDictRangeSet.range_enclosing_range"]}
{"id": "C12", "title": "range_containing returns the unique member containing the value", "statement": "range_containing(v) returns a member containing v if one exists and None otherwise; at most one member contains v.", "quantifier": "all endpoint types, all finite histories of add / add_all / clear on a mutable range set, all query arguments", "why_tests_cant": "All values, all histories.", "anchors": ["vistautils/range.py:_SortedDictRangeSet.range_containing"]}
{"id": "C13", "title": "RangeSet.intersects means a non-empty common sub-range", "statement": "rs.intersects(r) iff there is a non-empty range enclosed both by r and by some member; no exception is raised.", "quantifier": "all endpoint types, all finite histories of add / add_all / clear on a mutable range set, all query arguments", "why_tests_cant": "All queries, all histories.", "anchors": ["vistautils/range.py:_SortedDictRangeSet.intersects"]}
{"id": "C14", "title": "ranges_overlapping returns exactly the members connected to the query, in order", "statement": "ranges_overlapping(r) is the sub-sequence of as_ranges() consisting of the members connected with r.", "quantifier": "all endpoint types, all finite histories of add / add_all / clear on a mutable range set, all query arguments", "why_tests_cant": "The index arithmetic has boundary cases for every relative position.", "anchors": ["vistautils/range.py:_SortedDictRangeSet.ranges_overlapping"]}
{"id": "C15", "title": "ranges_enclosed_by returns exactly the enclosed members, in order", "statement": "ranges_enclosed_by(r) is the sub-sequence of as_ranges() consisting of members m with r.encloses(m).", "quantifier": "all endpoint types, all finite histories of add / add_all / clear on a mutable range set, all query arguments", "why_tests_cant": "Early break must never lose a member.", "anchors": ["vistautils/range.py:_SortedDictRangeSet.ranges_enclosed_by"]}
{"id": "C16", "title": "rightmost_containing_or_below", "statement": "Returns the greatest member m having some lower bound not above the limit (m contains the limit or lies entirely below it, or starts at it closed), None iff no member qualifies.", "quantifier": "all endpoint types, all finite histories of add / add_all / clear on a mutable range set, all query arguments", "why_tests_cant": "All limits, all histories.", "anchors": ["vistautils/range.py:_SortedDictRangeSet.rightmost_containing_or_below"]}
{"id": "C17", "title": "leftmost_containing_or_above", "statement": "Returns the least member whose upper bound is not below the limit, None iff no member qualifies.", "quantifier": "all endpoint types, all finite histories of add / add_all / clear on a mutable range set, all query arguments", "why_tests_cant": "All limits, all histories.", "anchors": ["vistautils/range.py:_SortedDictRangeSet.leftmost_containing_or_above"]}
{"id": "C18", "title": "RangeSet.span is the least range enclosing everything added", "statement": "span raises ValueError iff the set is empty; otherwise it is the least range enclosing every non-empty range added since the last clear.", "quantifier": "all endpoint types, all finite histories of add / add_all / clear on a mutable range set, all query arguments", "why_tests_cant": "All histories.", "anchors": ["vistautils/range.py:_SortedDictRangeSet.span"]}
{"id": "C19", "title": "The state of a range set rebuilds it; equality is extensional", "statement": "__setstate__(__getstate__(rs)) reproduces a range set equal to rs answering every query identically, for every reachable rs (the ranges of the state being the same objects; for real pickling, which copies them, see C88); a == b iff they have the same as_ranges().", "quantifier": "all histories of mutations", "why_tests_cant": "All reachable states.", "anchors": ["vistautils/range.py:RangeSet.__getstate__", "vistautils/range.py:_SortedDictRangeSet.__setstate__", "vistautils/range.py:RangeSet.__eq__"]}
{"id": "C20", "title": "Built immutable range sets are snapshots", "statement": "A range set returned by Builder.build() (or immutable_copy()) never changes, whatever further calls are made on any builders and mutable range sets; it has what its builder had at the time. Each builder or mutable set has what was added to it since it was made or last cleared, whatever is done with others. as_ranges() is a view: of an immutable set it always shows the same, of a mutable one what is in the set when it is looked at (so it can change: counterexample).", "quantifier": "all interleavings of add, clear and build on any number of builders and mutable sets", "why_tests_cant": "History property about aliasing.", "anchors": ["vistautils/range.py:_ImmutableSortedDictRangeSet.Builder", "vistautils/range.py:_SortedDictRangeSet.immutable_copy"]}
{"id": "C21", "title": "ImmutableRangeMap accepts exactly disconnected non-empty keys", "statement": "Constructing an ImmutableRangeMap from a mapping raises ValueError iff some key range is empty or two distinct key ranges are connected.", "quantifier": "all finite mappings from ranges to values, in every order", "why_tests_cant": "A length comparison after coalescing stands for a pairwise check.", "anchors": ["vistautils/range.py:ImmutableRangeMap.__attrs_post_init__", "vistautils/range.py:ImmutableRangeMap._init_range_set"]}
{"id": "C22", "title": "ImmutableRangeMap lookup is exact", "statement": "For every constructed map, m[k] is the value of the unique key range containing k, None if there is none; k in m iff some key range contains k; lookups never raise KeyError.", "quantifier": "all constructed range maps, all probe keys", "why_tests_cant": "All maps, all keys.", "anchors": ["vistautils/range.py:ImmutableRangeMap.__getitem__", "vistautils/range.py:ImmutableRangeMap.__contains__"]}
{"id": "C23", "title": "ImmutableRangeMap navigation returns values of the right key ranges", "statement": "get_enclosed_by(r) returns exactly the values of keys enclosed by r; get_from_rightmost_containing_or_below / get_from_leftmost_containing_or_above return the value of the corresponding extreme key range, None iff none; running the constructor again on the items __reduce__ gives rebuilds an equal map (for real pickling, which copies the keys, see C88).", "quantifier": "all constructed range maps, all probes", "why_tests_cant": "All maps, all probes.", "anchors": ["vistautils/range.py:ImmutableRangeMap.get_enclosed_by", "vistautils/range.py:ImmutableRangeMap.get_from_rightmost_containing_or_below", "vistautils/range.py:ImmutableRangeMap.get_from_leftmost_containing_or_above", "vistautils/range.py:ImmutableRangeMap.__reduce__"]}
{"id": "C24", "title": "Span predicates mean what they say about offsets", "statement": "For all spans: overlaps iff some offset is in both; contains_span iff every offset of the other is in it; precedes/follows iff every offset of one is below every offset of the other; exactly one of precedes, follows, overlaps holds; len is the number of offsets; a Span is constructible iff start < end. Objects with a span start, end and contain what their span does. Different spans have different representations.", "quantifier": "all pairs of integer spans", "why_tests_cant": "Unbounded integers.", "anchors": ["vistautils/span.py:Span.overlaps", "vistautils/span.py:Span.contains_span", "vistautils/span.py:Span.precedes", "vistautils/span.py:Span.follows", "vistautils/span.py:Span.__len__", "vistautils/span.py:Span._validate_start"]}
{"id": "C25", "title": "intersection and clip_to give exactly the common offsets", "statement": "a.intersection(b) and a.clip_to(b) return None iff no offset is shared, else a span whose offsets are exactly the shared ones; they agree with each other, never raise, and are commutative / idempotent as set intersection.", "quantifier": "all pairs of integer spans", "why_tests_cant": "Unbounded integers; intersection goes through closed ranges with +-1 conversions.", "anchors": ["vistautils/span.py:Span.intersection", "vistautils/span.py:Span.clip_to", "vistautils/span.py:Span.as_range"]}
{"id": "C26", "title": "shift translates offsets and composes", "statement": "s.shift(d) never raises, has the same length, contains i iff s contains i-d; shifting by d then e equals shifting by d+e; shifting preserves overlaps, contains_span and precedes.", "quantifier": "all spans and shifts", "why_tests_cant": "Unbounded integers.", "anchors": ["vistautils/span.py:Span.shift"]}
{"id": "C27", "title": "minimal_enclosing_span is the least enclosing span", "statement": "minimal_enclosing_span(spans) raises ValueError iff spans is empty; otherwise it contains every span and is contained in every span that does.  (For a one-shot iterator, which the declared Iterable type admits, the code raises ValueError whatever the content.)", "quantifier": "all finite collections of spans, re-iterable or one-shot", "why_tests_cant": "All lengths.", "anchors": ["vistautils/span.py:Span.minimal_enclosing_span"]}
{"id": "C28", "title": "HasSpanIndex.index answers span queries exactly", "statement": "For an index of any items: get_exactly_matching / get_overlapping / get_contained / get_containing return exactly the set of indexed items whose span matches / overlaps / is contained in / contains the query.", "quantifier": "all finite item collections, all query spans", "why_tests_cant": "All collections.", "anchors": ["vistautils/span.py:_OverLappingHasSpanIndex", "vistautils/span.py:HasSpanIndex.index"]}
{"id": "C29", "title": "index_disjoint accepts exactly non-overlapping spans and answers queries exactly", "statement": "index_disjoint raises ValueError iff two items have different spans that overlap (adjacent spans are accepted); otherwise get_exactly_matching / get_overlapping / get_contained / get_containing return exactly the items whose span matches / overlaps / is contained in / contains the query, where of several items with one span the last counts, and get_containing needs item equality not to identify items with different spans.", "quantifier": "all finite item collections, all query spans", "why_tests_cant": "All collections and queries.", "anchors": ["vistautils/span.py:_DisjointHasSpanIndex", "vistautils/span.py:_build_range_to_item_index"]}
{"id": "C30", "title": "Annotated text preserves the text", "statement": "Removing the inserted tags from annotated_text(text, annotations, text_offsets) yields text, for every non-empty text, annotations and offsets with non-negative start.", "quantifier": "all texts, all annotation collections, all snippet offsets", "why_tests_cant": "All inputs.", "anchors": ["vistautils/annotated_text_utils.py:HTMLStyleAnnotationFormatter.annotated_text"]}
{"id": "C31", "title": "Annotated text is well nested", "statement": "If the annotations' spans, clipped to the snippet, are pairwise distinct and pairwise nested or disjoint then the tags in the output are properly nested.  (Two annotations with the same clipped span come out crossed.)", "quantifier": "all annotation collections with laminar spans", "why_tests_cant": "Sorting ties only show on particular shapes.", "anchors": ["vistautils/annotated_text_utils.py:HTMLStyleAnnotationFormatter._tag_sequence"]}
{"id": "C32", "title": "Each tag is placed at its offset", "statement": "Each annotation overlapping the snippet contributes exactly one start and one end tag, and the text between them is exactly the text of its span clipped to the snippet; annotations outside contribute nothing. create_div_of_class and create_span_of_class make annotations with the tags div and span and that one attribute.", "quantifier": "all texts, annotations, offsets", "why_tests_cant": "All inputs.", "anchors": ["vistautils/annotated_text_utils.py:HTMLStyleAnnotationFormatter._clip_to_offsets_and_shift", "vistautils/annotated_text_utils.py:HTMLStyleAnnotationFormatter.annotated_text"]}
{"id": "C33", "title": "Annotation order does not matter", "statement": "If the clipped spans are pairwise distinct, permuting the annotations does not change the output.", "quantifier": "all permutations", "why_tests_cant": "All permutations.", "anchors": ["vistautils/annotated_text_utils.py:HTMLStyleAnnotationFormatter._tag_sequence"]}
{"id": "C34", "title": "windowed without partial windows yields all complete windows in order", "statement": "list(windowed(xs, w)) = [xs[i:i+w] for i in range(len(xs)-w+1)] for every xs and w >= 1; w < 1 raises ValueError; iterating the iterable form repeatedly yields the same windows.", "quantifier": "all sequences, all window sizes", "why_tests_cant": "All sizes.", "anchors": ["vistautils/iter_utils.py:windowed", "vistautils/iter_utils.py:_complete_windows", "vistautils/iterutils.py:tile_with_pairs"]}
{"id": "C35", "title": "windowed with partial windows yields one window per element", "statement": "list(windowed(xs, w, partial_windows=True)) = [xs[i:i+w] for i in range(len(xs))].", "quantifier": "all sequences, all window sizes", "why_tests_cant": "All sizes, incl. w > len.", "anchors": ["vistautils/iter_utils.py:_possibly_incomplete_windows"]}
{"id": "C36", "title": "drop skips exactly n elements and leaves the rest", "statement": "drop(it, n) raises ValueError iff n < 0; otherwise yields xs[n:]; on an Iterable the result can be iterated any number of times with the same outcome; on an Iterator a second iteration yields nothing.", "quantifier": "all sequences and n", "why_tests_cant": "All sizes.", "anchors": ["vistautils/iter_utils.py:drop", "vistautils/iter_utils.py:_DropIterable"]}
{"id": "C37", "title": "only / get_only return the element iff there is exactly one", "statement": "only(it) and get_only(it) return x iff the input has exactly one element x and raise ValueError otherwise, and consume at most two elements.", "quantifier": "all sequences", "why_tests_cant": "All inputs.", "anchors": ["vistautils/iter_utils.py:only", "vistautils/collection_utils.py:get_only"]}
{"id": "C38", "title": "Small helpers: non_none, flatten_once_to_list, strip_extension, str_list_limited", "statement": "non_none keeps exactly the non-None elements in order; flatten_once_to_list concatenates; strip_extension(stem + '.' + ext) = stem for dot-free ext and is identity on dot-free names; str_list_limited shows str(list) when within limit and otherwise the first `limit` items and the exact count of the rest; negative limit raises ValueError.", "quantifier": "all inputs", "why_tests_cant": "All inputs.", "anchors": ["vistautils/iter_utils.py:non_none", "vistautils/misc_utils.py:flatten_once_to_list", "vistautils/misc_utils.py:strip_extension", "vistautils/misc_utils.py:str_list_limited"]}
{"id": "C39", "title": "topological_sort output is a linear extension", "statement": "If topological_sort finishes without error, its output lists every node exactly once and every edge's source before its target. in_degree()[n] is the number of nodes with an edge to n, and iterating over in_degree() gives each node once, with that number.", "quantifier": "all finite directed graphs, all iteration orders of the edge sets", "why_tests_cant": "All graphs.", "anchors": ["vistautils/_graph.py:Digraph.topological_sort"]}
{"id": "C40", "title": "topological_sort raises iff the graph has a cycle", "statement": "topological_sort raises ParameterInterpolationError iff the graph has a directed cycle; it always terminates; the nodes named in the error are exactly those on or downstream of a cycle, and all the others have been yielded, once each, after their predecessors.", "quantifier": "all finite directed graphs", "why_tests_cant": "All graphs.", "anchors": ["vistautils/_graph.py:Digraph.topological_sort", "vistautils/_graph.py:validate_edges"]}
{"id": "C41", "title": "Parameter lookup follows the dotted path", "statement": "Looking up n1.\u2026.nk succeeds iff following the names through nested namespaces reaches a value, and then returns that value; p.namespace(a) lookup of b equals p lookup of a.b; `in` is True iff the lookup yields a non-None value; with a non-None default the default is returned iff the path does not exist.", "quantifier": "all parameter trees, all names", "why_tests_cant": "All trees, all paths.", "anchors": ["vistautils/parameters.py:Parameters._private_get", "vistautils/parameters.py:Parameters.get", "vistautils/parameters.py:Parameters.__contains__", "vistautils/parameters.py:Parameters.namespace"]}
{"id": "C42", "title": "from_mapping and as_nested_dicts are inverse", "statement": "For every nested dict d with string keys: from_mapping(d) succeeds iff no key at any depth contains '.', and raises ValueError otherwise; on success as_nested_dicts() == d, the leaves of the result are exactly the leaves of d at the same paths, every nested namespace stores its own path as namespace_prefix, and from_mapping(p.as_nested_dicts()) gives p back.", "quantifier": "all nested mappings", "why_tests_cant": "All depths.", "anchors": ["vistautils/parameters.py:Parameters.from_mapping", "vistautils/parameters.py:Parameters.as_nested_dicts", "vistautils/parameters.py:Parameters.__attrs_post_init__"]}
{"id": "C43", "title": "namespaced_items enumerates exactly the leaves under their full names", "statement": "For every p made by from_mapping at the top level, namespaced_items() yields each non-namespace value exactly once, and (name, v) is yielded iff following the dotted name reaches the non-namespace value v.", "quantifier": "all nested mappings", "why_tests_cant": "All depths.", "anchors": ["vistautils/parameters.py:Parameters.namespaced_items"]}
{"id": "C44", "title": "from_key_value_pairs rebuilds what namespaced_items lists", "statement": "For pairs of names and non-mapping values, from_key_value_pairs succeeds iff no name is empty and no name goes through an already assigned leaf; the leaves of the result are exactly what assigning in order leaves behind (later pairs override); a failure is RuntimeError for an empty name or TypeError for a name through a leaf. from_key_value_pairs(p.namespaced_items()) has exactly the leaves of p unless p has a parameter with the empty name (then it raises RuntimeError: counterexample).", "quantifier": "all key-value sequences", "why_tests_cant": "All sequences.", "anchors": ["vistautils/parameters.py:Parameters.from_key_value_pairs"]}
{"id": "C45", "title": "unify is a right-biased merge", "statement": "p.unify(q) raises IOError iff some path is a (non-None) leaf on one side and a namespace on the other; otherwise every leaf of the result is q's value where q has a non-None value, else p's; nothing else appears, and the namespaces are those of either side. For top-level objects p.unify(empty)=p, empty.unify(p)=p, p.unify(p)=p, the result is again such an object. Both groupings of three objects give equal results whenever both succeed (one may fail when a None hides a namespace: counterexample).", "quantifier": "all pairs/triples of parameter trees", "why_tests_cant": "All trees.", "anchors": ["vistautils/parameters.py:Parameters.unify"]}
{"id": "C46", "title": "A null value in new_params never overrides", "statement": "If q maps a path to None and p has a non-None value there, p.unify(q) keeps p's value (contrary to the docstring's conflict rule).", "quantifier": "all parameter trees", "why_tests_cant": "All trees.", "anchors": ["vistautils/parameters.py:Parameters.unify", "vistautils/parameters.py:Parameters.__contains__"]}
{"id": "C47", "title": "Typed accessors never return a value of the wrong type or range", "statement": "string/integer/floating_point/boolean/arbitrary_list/namespace return only the value found (or the default) and only if it has that type (True/False count as integers, as in Python); positive_integer only values > 0; integer/floating_point(valid_range) only values in the range; string(valid_options) and enum only listed values; everything else raises ParameterError, except that where the value is a namespace in which something cannot be written as text (a null, bytes, another object, a Parameters in a list), making the message raises RuntimeError (counterexample).", "quantifier": "all parameter trees, names and arguments", "why_tests_cant": "All inputs.", "anchors": ["vistautils/parameters.py:Parameters.get", "vistautils/parameters.py:Parameters.integer", "vistautils/parameters.py:Parameters.positive_integer", "vistautils/parameters.py:Parameters.string", "vistautils/parameters.py:Parameters.floating_point", "vistautils/parameters.py:Parameters.enum"]}
{"id": "C48", "title": "Optional accessors return the parameter, the default, or None", "statement": "optional_X(name) equals X(name) when name is present; when absent it is the default, except that optional_positive_integer validates the default, optional_floating_point range-checks it if it is a float (an integer default is returned unchecked: counterexample), and falsy defaults (0, 0.0, []) of those and of optional_arbitrary_list come back as None (counterexample to the documented behaviour); optional_arbitrary_list refuses a truthy non-list default even when the parameter is present. Refused means ParameterError, or RuntimeError for the exception of C47.", "quantifier": "all parameter trees, names and defaults", "why_tests_cant": "Falsy defaults.", "anchors": ["vistautils/parameters.py:Parameters.optional_integer", "vistautils/parameters.py:Parameters.optional_positive_integer", "vistautils/parameters.py:Parameters.optional_floating_point", "vistautils/parameters.py:Parameters.optional_string", "vistautils/parameters.py:Parameters.get_optional", "vistautils/parameters.py:Parameters.optional_arbitrary_list"]}
{"id": "C49", "title": "assert_exactly_one_present", "statement": "assert_exactly_one_present(names) succeeds iff exactly one entry of names is present, else raises ParameterError.", "quantifier": "all trees and name lists", "why_tests_cant": "All lists.", "anchors": ["vistautils/parameters.py:Parameters.assert_exactly_one_present"]}
{"id": "C50", "title": "Interpolation replaces every placeholder by the final value of the parameter it names", "statement": "When interpolation succeeds, the result has the namespaces of the file with the same keys in the same order; parameters that are not strings are unchanged; a string that is just %name% becomes the final value of name (any type); any other string is its text with each %name% replaced by the final value of name, which is a string.  The final value of a name is what the result itself has there if that counts as true, otherwise the context's value.  The result is the only one with these properties.  (For files in which no placeholder looks for a parameter inside a non-namespace parameter of the file; without that the outcome depends on the order of the file.)", "quantifier": "all parameter files and contexts, all word-character classes", "why_tests_cant": "Order of substitution must be right for every dependency graph.", "anchors": ["vistautils/parameters.py:YAMLParametersLoader._interpolate"]}
{"id": "C51", "title": "Cyclic interpolation is reported; interpolation succeeds exactly when there is a correct result", "statement": "Interpolation raises ParameterInterpolationError iff the placeholders form a cycle; it succeeds iff they do not and a correct result (as in C50) exists; otherwise it raises ParameterError or, for a namespace that would contain itself, RecursionError, never the 'impossible' RuntimeError.  In particular a name found neither in file nor context, or a non-string embedded in a longer string, makes it fail. A placeholder that goes on below a parameter of the file that is not a namespace makes it fail in any case if it goes on by one component (AttributeError), or by more and the value is a string that contains, or a list that has, the next component, or is neither a string nor a list (TypeError); the exception is that of one such placeholder.", "quantifier": "all parameter files and contexts", "why_tests_cant": "All graphs.", "anchors": ["vistautils/parameters.py:YAMLParametersLoader._interpolate", "vistautils/_graph.py:Digraph.topological_sort"]}
{"id": "C52", "title": "Loading: included files are merged with later files taking precedence", "statement": "The loaded parameters are the given context overridden, in this order, by each included file (each after those it includes itself) and by the file itself; each file is interpolated with what was loaded before it as context, and with those environment variables not hidden by a parameter; variables never appear by themselves. load fails with ParameterError if both context arguments are given, with the reading error if the top file cannot be read, and otherwise any failure is an IOError; it succeeds exactly when all files involved are readable mappings with string keys which can be interpolated and unified in turn. Inclusion cycles, non-string keys and relative includes in load_string are IOErrors.", "quantifier": "all include trees, file systems, YAML contents, contexts, environments, recursion limits", "why_tests_cant": "All trees, all file systems, unbounded inclusion depth.", "anchors": ["vistautils/parameters.py:YAMLParametersLoader._inner_load_from_string", "vistautils/parameters.py:YAMLParametersLoader.load", "vistautils/parameters.py:YAMLParametersLoader.load_string", "vistautils/parameters.py:YAMLParametersLoader._check_all_keys_strings"]}
{"id": "C53", "title": "object_from_parameters only returns objects of the expected type, chosen by the documented priority", "statement": "The result is always an instance of expected_type; an object found that is of another type gives ParameterError (TypeError if a string was evaluated to it; RuntimeError if it is a Parameters object that cannot be written as text: counterexample), and the type has no other effect. Absent name: the default value, else what the default factory makes of an empty Parameters, else ParameterError. String: a special value is returned as is, any other text is evaluated with its dotted prefixes imported. Namespace: exactly one of value and factory must be present; value is evaluated, an evaluated factory is applied to the namespace (class with from_parameters, class without, callable). Four documented details are violated and shown by counterexample: special factories for strings, special values in namespaces, the prefix of the object given to a default factory, and the exception class.", "quantifier": "all parameter trees, special maps, defaults, contexts; every behaviour of eval, import and the factories", "why_tests_cant": "All combinations, with arbitrary evaluated code.", "anchors": ["vistautils/parameters.py:Parameters.object_from_parameters", "vistautils/parameters.py:_extend_prefix", "vistautils/misc_utils.py:eval_in_context_of_modules"]}
{"id": "C54", "title": "Zip store round trip", "statement": "A with-block on a new zip sink (character or bytes; path absent, or overwrite on) in which distinct keys are put raises nothing, and a zip source entered on the same path then serves exactly those pairs: keys() lists each key once, source[k] and get(k, d) return the value put, and for every other key source[k] raises KeyError and get returns d. Conditions: the filename function is injective on the keys in use and gives names without NUL other than '__keys'; keys contain no line feed; the keys are not just the empty string. Without them the property fails (collisions replace silently, the key '__keys' is lost).", "quantifier": "all put sequences with distinct keys, all values, all filename functions and key sets meeting the conditions, all iteration orders of the key set", "why_tests_cant": "All histories.", "anchors": ["vistautils/key_value.py:_ZipKeyValueSink", "vistautils/key_value.py:_ZipFileKeyValueSource", "vistautils/key_value.py:_write_keys_to_keys_file", "vistautils/key_value.py:_read_keys_from_keys_file"]}
{"id": "C55", "title": "Sessions accumulate", "statement": "For any sequence of with-blocks, each on a new sink for the same path, some overwriting and some appending: no block raises; an overwriting block starts from an empty store, an appending one from what is there; put raises ValueError for exactly the keys that are there at that moment, and otherwise adds the pair; and a source opened at the end serves exactly the resulting mapping. (One sink object used for two blocks keeps the keys of the first: counterexample.)", "quantifier": "all sequences of sessions, all put sequences including duplicates, all filename functions and (non-empty) keys meeting the conditions of C54", "why_tests_cant": "All histories.", "anchors": ["vistautils/key_value.py:_ZipKeyValueSink.__enter__", "vistautils/key_value.py:_ZipKeyValueSink.__exit__", "vistautils/key_value.py:_ZipKeyValueSink.put"]}
{"id": "C56", "title": "Rejected puts change nothing", "statement": "put of a key the sink has, or of None, raises ValueError, and put before the sink is entered raises AssertionError; the sink stays exactly as it was, and a session leaves the same file as it would without the rejected call. (Not so for a value of another type, or after the block: the key is recorded although put raised \u2014 counterexamples.)", "quantifier": "all sink states, keys, values, and positions of the rejected call in a session", "why_tests_cant": "All histories.", "anchors": ["vistautils/key_value.py:_ZipKeyValueSink.put"]}
{"id": "C57", "title": "The key listing round-trips", "statement": "Reading the key file written for a set of keys returns the same set iff no key contains a newline and the set is not exactly {''}.", "quantifier": "all finite key sets", "why_tests_cant": "All sets.", "anchors": ["vistautils/key_value.py:_read_keys_from_keys_file", "vistautils/key_value.py:_write_keys_to_keys_file"]}
{"id": "C58", "title": "Key-value sources agree with themselves", "statement": "For every source, items(filter) yields exactly (k, source[k]) for k in keys() passing the filter, in that order, until a lookup raises; without keys it raises NotImplementedError. For file-map sources and entered zip sources, get(k, d) is source[k] where that succeeds, d itself where it raises KeyError, and raises what source[k] raises otherwise; zip sources that are not entered raise AssertionError.", "quantifier": "all sources, filters, keys, defaults of any type", "why_tests_cant": "All inputs.", "anchors": ["vistautils/key_value.py:KeyValueSource.items", "vistautils/key_value.py:_PathMappingCharKeyValueSource", "vistautils/key_value.py:_ZipFileKeyValueSource.get"]}
{"id": "C59", "title": "Interpreted sources are value maps", "statement": "interpret_values(s, f): keys unchanged, value f(k, s[k]), the default passed through untouched, items mapped in order until f raises; interpreting twice is interpreting with the composite; both ways of interpreting the items of a source agree.", "quantifier": "all sources and functions, including ones that raise", "why_tests_cant": "All functions.", "anchors": ["vistautils/key_value.py:_InterpretedKeyValueSource", "vistautils/key_value.py:InterpretedLinearKeyValueSource"]}
{"id": "C60", "title": "Tar sources expose exactly the selected regular files", "statement": "items(key_filter) yields, in archive order, the key and content of exactly the regular-file members passing name_filter whose key is non-empty and passes key_filter, until one cannot be extracted; read as text, the values are the decoded contents, and the first content that is not UTF-8 ends the items with a ValueError after those before it; before the source is entered it raises AssertionError.", "quantifier": "all archives, key functions, filters", "why_tests_cant": "All archives.", "anchors": ["vistautils/key_value.py:TarGzipBytesLinearKeyValueSource.items"]}
{"id": "C61", "title": "DocID-to-file maps round-trip", "statement": "read_doc_id_to_file_map returns, if every line of the source has exactly two tab-separated fields, the mapping of the stripped first field to the path named by the stripped second, the last line of an id counting; otherwise it raises IOError. Of what write_doc_id_to_file_map wrote it returns the same mapping with the paths made absolute, its keys in sorted order, provided ids and paths have no tab, line feed, or white space at their ends. (A blank line is an error; an id with white space at its end comes back changed: counterexamples.)", "quantifier": "all texts; all finite maps", "why_tests_cant": "All maps.", "anchors": ["vistautils/io_utils.py:write_doc_id_to_file_map", "vistautils/io_utils.py:read_doc_id_to_file_map"]}
{"id": "C62", "title": "Directory sinks round-trip through their index", "statement": "A with-block on a directory sink (character or bytes) over an empty directory raises nothing, changes nothing outside the directory, and a source made from the directory's _index then serves exactly the last value put for each key: keys() lists each once, source[k] and get(k, d) give the value, for other keys KeyError and d. For text, line ends are translated on reading. Conditions: keys are plain file names other than '_index', without tab, line feed, carriage return or white space at their ends, and the names in the absolute path have no tab, line feed or carriage return. If the directory is missing or not empty, entering raises OSError and nothing changes. (The key '_index' is overwritten by the index; carriage returns are not read back: counterexamples.)", "quantifier": "all put sequences, all values, all file-system states, directories and working directories", "why_tests_cant": "All histories.", "anchors": ["vistautils/key_value.py:_DirectoryCharKeyValueSink", "vistautils/key_value.py:KeyValueSource.from_doc_id_to_file_map"]}
{"id": "C63", "title": "Even splitting partitions the store", "statement": "For a source whose keys are plain names, splitting into n slices creates the output directory, an n-line list of the slices and n zip stores; every key with its value is in exactly one slice, nothing is added, and sizes differ by at most one; the keys are dealt to the slices in turn in sorted order, or in the order of the shuffle if there is a seed, whatever permutation the shuffle gives; nothing else changes. A source that cannot list its keys raises TypeError; a bad parameter raises ParameterError (see C47 for the exception when it is a namespace).", "quantifier": "all stores with plain keys, all n >= 1, all shuffles, all file-system states in which the outputs can be made", "why_tests_cant": "All sizes.", "anchors": ["vistautils/scripts/split_key_value_store.py:_split_into_even_slices"]}
{"id": "C64", "title": "Joining the slices restores the store; duplicates are rejected", "statement": "Joining zip stores into a zip store that is not one of them yields exactly the union and succeeds iff no key occurs in two inputs; otherwise RuntimeError is raised and the output holds entries of the inputs only. The same holds of joining into an empty directory (output.type file-map): a source made of the index in the directory serves exactly the union, and nothing outside the directory changes; joining into a directory that is not empty raises OSError, and into one that does not exist ParameterError, and changes nothing. An input that does not exist raises OSError, with the union of those before it in the output; bad parameters and an output that is in the way raise ParameterError or OSError and change nothing. Joining the slices of an even split, using the list it wrote, gives the original store. If the output is one of the inputs, the script raises, and that input is lost (counterexample).", "quantifier": "all lists of zip stores with plain keys (file names for a directory), all parameters, all file-system states", "why_tests_cant": "All sizes.", "anchors": ["vistautils/scripts/join_key_value_stores.py:main"]}
{"id": "C65", "title": "Explicit split copies exactly the requested keys", "statement": "Each output holds exactly the requested keys with their values and nothing else changes; a missing key raises RuntimeError; when the split must be exhaustive (the default), it succeeds iff every key of the store was requested, otherwise RuntimeError is raised. Exactly one of num_slices and explicit_split must be given. The flag is read from the top level: the documented explicit_split.must_be_exhaustive is ignored (counterexample).", "quantifier": "all stores with plain keys, key lists and file-system states", "why_tests_cant": "All inputs.", "anchors": ["vistautils/scripts/split_key_value_store.py:_explicit_split"]}
{"id": "C66", "title": "Downsampling keeps a sub-store of the right size", "statement": "The output holds min(num_to_sample, size) distinct keys of the input with unchanged values, the first ones in the order of the shuffle, whatever permutation the shuffle gives; nothing else changes. The source is asked while the output is being written; it need only go on serving its entries while nothing but the output changes. From Python 3.11 on the shuffle call raises TypeError before anything is written (counterexample). Bad parameters raise ParameterError (see C47 for the exception when it is a namespace); a source that cannot list its keys TypeError; an exception in opening the source is passed on and nothing changes.", "quantifier": "all stores with plain keys, all shuffles, all file-system states", "why_tests_cant": "All inputs.", "anchors": ["vistautils/scripts/downsample_key_value_store.py:main"]}
{"id": "C67", "title": "MemoryAmount.parse reads what starts with an amount and rejects everything else", "statement": "A string that starts with digits, at most one space and one of the letters K, M, G, T in either case is parsed to the number the digits denote and the unit of the letter, whatever follows (so text after the unit, such as B or b, is ignored); if the number is 0 a ValueError is raised; every other string raises RuntimeError. Formatting n >= 1 in decimal followed by the unit and parsing it gives n and the unit back. MemoryUnit.parse accepts exactly the four letters, in either case.", "quantifier": "all strings, amounts and units", "why_tests_cant": "All strings.", "anchors": ["vistautils/memory_amount.py:MemoryAmount.parse", "vistautils/memory_amount.py:MemoryUnit.parse"]}
{"id": "C68", "title": "Checkpoints behave like a set of names", "statement": "For every history of set/reset_all on a checkpoint directory (created with its parents if need be), 'name in checkpoints' holds iff the name was set since the last reset, or was a file there at the start and there was no reset, for names that are plain file names and not those of sub-directories; it does so for any process reading the directory; nothing outside the directory changes. None raises TypeError; a file in the way OSError. The empty name and names leading out of the directory do not behave so (counterexamples).", "quantifier": "all histories, all file-system states", "why_tests_cant": "All histories.", "anchors": ["vistautils/checkpoints.py:_CheckPointDirectory"]}
{"id": "C69", "title": "Sinks and sources: last write wins, reads return the content", "statement": "StringCharSink/BufferByteSink report exactly what was written in the session that was last left, for every interleaving of sessions; None before; a closed buffer raises ValueError. read_all, readlines and is_empty of a source agree with its content, readlines giving the lines without their line ends. Text read from a file is the content with CR and CRLF turned into LF; writing to a file sink creates the directories above it, leaves exactly the content there and changes nothing else, and reading it back gives the text (up to that translation); an entry written to a zip file is read back and other entries are kept; reading an entry by path or from an open archive gives the last entry of that name, KeyError if there is none, and ValueError once the archive is closed; is_empty of compressed files and of files in tar archives agrees with their text, except that a directory in a tar archive counts as empty although it cannot be read (counterexample); file_lines_to_set gives the non-empty lines, each once, in order of first occurrence.", "quantifier": "all strings, all write histories, all file-system states", "why_tests_cant": "All histories.", "anchors": ["vistautils/io_utils.py:StringCharSink", "vistautils/io_utils.py:BufferByteSink", "vistautils/io_utils.py:CharSource.readlines", "vistautils/io_utils.py:_StringCharSource", "vistautils/io_utils.py:file_lines_to_set"]}
{"id": "C70", "title": "Preconditions raise exactly when violated", "statement": "check_arg/check_state/check_not_none/check_args_are_none/check_args_not_none/check_isinstance/check_all_isinstance/check_in succeed, returning what they document, iff their condition holds, and raise ValueError, AssertionError or TypeError as documented otherwise; an error in computing the condition or formatting the message is passed on. check_opt_isinstance accepts None and instances, but also every falsy value of another type (counterexample). WithId and Scored validate with them.", "quantifier": "all values, whatever their type, truth and equality", "why_tests_cant": "All values.", "anchors": ["vistautils/preconditions.py:check_arg", "vistautils/preconditions.py:check_opt_isinstance"]}
{"id": "C71", "title": "Script helpers compute the documented names and texts", "statement": "The zip name tar_gz_to_zip derives is the input name with .tar or .tgz replaced by .zip, or with .zip added if it has none of the known endings; it always ends in .zip and is never the input name itself; for .tar.gz a dot too many stays (counterexample). text_at_offsets prints exactly the code points between the offsets, without a warning, when 0 <= start < end <= length; it warns about the start (the end) iff it is not within bounds, but prints a slice all the same (counterexample); a missing file is an OSError and a file that is not UTF-8 a ValueError; line ends are not translated.", "quantifier": "all names, texts, offsets and file-system states", "why_tests_cant": "All inputs.", "anchors": ["vistautils/scripts/tar_gz_to_zip.py:_output_name", "vistautils/scripts/text_at_offsets.py:main"]}
{"id": "C72", "title": "Module context for evaluation", "statement": "eval_in_context_of_modules never changes the caller's context (nor any dict that existed before the call), whatever the evaluated code does to its globals and however the call ends. It imports the package prefixes of the requested modules that the context does not define, each once and in order, parents before their sub-packages, and stops at the first that cannot be imported; it succeeds with v exactly when the code evaluates to v of the expected type in the context plus these modules. _context_modules_from_prefix lists exactly the proper dotted prefixes, shortest first.", "quantifier": "all contexts, module lists, code, every behaviour of eval and import", "why_tests_cant": "All lists.", "anchors": ["vistautils/misc_utils.py:eval_in_context_of_modules", "vistautils/parameters.py:Parameters._context_modules_from_prefix"]}
{"id": "C73", "title": "Directory and file parameters leave the file system as documented", "statement": "creatable_directory and creatable_file succeed with the resolved path unless a file is in the way (OSError, no change), and then the directory (the parent directory) and those above it exist and nothing else has changed; creatable_empty_directory returns an existing empty directory as it is, creates a missing one, raises ParameterError without any change for a file or a non-empty directory, unless delete is on, when exactly the directory's content goes; existing_file/existing_directory succeed iff the path is a file/directory and never modify anything; the optional_ variants give None iff the parameter is absent; a parameter that is not a string is a ParameterError (see C47 for the exception when it is a namespace) without any change. Paths are resolved against the working directory.", "quantifier": "all file-system states, parameter trees and working directories", "why_tests_cant": "All states.", "anchors": ["vistautils/parameters.py:Parameters.creatable_directory", "vistautils/parameters.py:Parameters.creatable_empty_directory", "vistautils/parameters.py:Parameters.existing_file", "vistautils/parameters.py:Parameters.existing_directory", "vistautils/io_utils.py:is_empty_directory"]}
{"id": "C74", "title": "Sources and sinks built from parameters are those the parameters describe", "statement": "For the six char/byte source, linear source and sink functions: with a namespace of type zip the source reads the existing file under path (ParameterError otherwise, or for the exception of C47 RuntimeError, and no change) and serves the store in it; the sink writes to the file under path after creating its parent directories (and what is put into it is what a zip source for the same path then serves); type file-map gives a sink for the existing directory under path. The module's own functions _doc_id_source_from_params and _doc_id_binary_source_from_params, given as the type, make a source of the document map in the existing file under path (IOError if a line has not two fields). Sources look in the namespace input and sinks in output unless another is named. Any other type is evaluated in the module's globals overridden by the caller's context, after the imports, and used as a factory on the namespace; ParameterError if it cannot be evaluated, is no factory or makes the wrong kind of object (RuntimeError if that is a Parameters object that cannot be written as text). ParameterError unless exactly one of type and value is given. Counterexamples, proved: a source of type file-map is always empty; the default used when the namespace is absent always raises ParameterError, as does a shortcut given as a string; the documented type directory is not known.", "quantifier": "all parameter trees, contexts, interpreters, file systems", "why_tests_cant": "All inputs.", "anchors": ["vistautils/key_value.py:char_key_value_source_from_params", "vistautils/key_value.py:byte_key_value_source_from_params"]}
{"id": "C75", "title": "earliest_then_longest_first_key sorts containers before what they contain", "statement": "sorted(spans, key=Span.earliest_then_longest_first_key) is a rearrangement of spans in which an earlier start precedes a later one and, among equal starts, a longer span precedes a shorter one; so a span never follows a different span it contains; the result does not depend on the order of the input.", "quantifier": "all finite lists of spans", "why_tests_cant": "All lists.", "anchors": ["vistautils/span.py:Span.earliest_then_longest_first_key"]}
{"id": "C76", "title": "sub_namespaces lists the namespaces directly below", "statement": "sub_namespaces() returns exactly the namespaces stored directly under this one, in order; it raises TypeError iff one of them holds, at some depth, a list or other unhashable mapping.", "quantifier": "all parameter trees", "why_tests_cant": "All trees.", "anchors": ["vistautils/parameters.py:Parameters.sub_namespaces"]}
{"id": "C77", "title": "evaluate evaluates exactly the documented expression in the documented context", "statement": "evaluate(name) succeeds with v exactly when: the name is a namespace whose value parameter is a string, whose import list consists of importable modules, and the (special) expression evaluates to v of the expected type in the context plus the modules and their parent packages that the context does not define; or the name is a string, with its proper dotted prefixes as modules; or the name is absent and v is the default. Every failure is a ParameterError. As a consequence an expression such as 1.5 cannot be evaluated.", "quantifier": "all parameter trees, contexts, special tables, every behaviour of eval and import", "why_tests_cant": "All inputs, arbitrary evaluated code.", "anchors": ["vistautils/parameters.py:Parameters.evaluate", "vistautils/parameters.py:Parameters._context_modules_from_prefix", "vistautils/misc_utils.py:eval_in_context_of_modules"]}
{"id": "C78", "title": "Written parameters are the nested dicts with paths as text, and can be loaded again", "statement": "Writing parameters hands the YAML library their nested dicts with every path (also inside lists) as a string and nothing else changed, or raises RuntimeError exactly when something that cannot be written (None, bytes, another object) occurs anywhere in them. If the YAML library reads back what it wrote, loading the text gives the same parameters and namespaces in the same order with paths as strings, provided no string has a placeholder, there is no top-level _includes parameter, and no environment variable in use has a dot in its name. None, which a parameter file can hold, cannot be written.", "quantifier": "all parameter trees, every behaviour of the YAML library and the environment", "why_tests_cant": "All trees.", "anchors": ["vistautils/parameters.py:YAMLParametersWriter.write", "vistautils/parameters.py:YAMLParametersWriter._preprocess_dicts", "vistautils/parameters.py:YAMLParametersLoader.load_string"]}
{"id": "C79", "title": "Lists and maps of paths, and pickled objects, are read from the file a parameter names", "statement": "path_list_from_file, for a string parameter, returns the lines of the file it names that are, once stripped, neither empty nor start with #, as paths in order, relative to resolve_relative_to if given (absolute paths stay as they are), where lines end as for str.splitlines; for a list parameter it returns every element (comments and blanks too), stripped, as a path. A file of one path per line gives those paths back. path_map_from_file returns the mapping of the stripped first fields to the paths named by the second, the last line of a key counting, or raises OSError if some line does not have exactly two tab-separated fields (so for a blank line). pickled_object_from_file returns what unpickling the file gives. A parameter that does not name a file is a ParameterError (see C47 for the exception when it is a namespace), a text that is not UTF-8 a ValueError, a list element that is not a string an AttributeError or TypeError; nothing is ever changed.", "quantifier": "all parameter trees, file-system states, texts and directories", "why_tests_cant": "All texts.", "anchors": ["vistautils/parameters.py:Parameters.path_list_from_file", "vistautils/parameters.py:Parameters.path_map_from_file", "vistautils/parameters.py:Parameters.pickled_object_from_file"]}
{"id": "C80", "title": "String and path helpers", "statement": "strip_extension removes exactly the last dot and what follows it, and leaves a name without a dot alone; flatten_once_to_list removes one level of nesting, keeping order; str_list_limited shows a list of at most limit items in full, and otherwise the first limit items and the number of the others, and raises ValueError for a negative limit; pathify leaves a path alone and parses a string, so that the text of a path gives the path back.", "quantifier": "all names, lists, limits and paths", "why_tests_cant": "All strings and lists.", "anchors": ["vistautils/misc_utils.py:strip_extension", "vistautils/misc_utils.py:flatten_once_to_list", "vistautils/misc_utils.py:str_list_limited", "vistautils/misc_utils.py:pathify"]}
{"id": "C81", "title": "configure_logging_from sets the level asked for", "statement": "Without logging.config_file, the level named by the string logging.root_level (one of CRITICAL, FATAL, ERROR, WARNING, WARN, INFO, DEBUG; INFO if the parameter is absent) becomes the level of the root logger and one handler is added, so that in a program without handlers exactly the messages of that level and above are printed, once each; any other value is a ParameterError (see C47 for the exception when it is a namespace) and leaves logging as it was. With logging.config_file the existing file configures logging whatever root_level says, and a missing file is a ParameterError without effect. With log_params the text of the parameters is logged afterwards if the level admits it. Calling it twice makes every message appear twice (counterexample to idempotence).", "quantifier": "all parameter trees, file systems, logging states and behaviours of fileConfig", "why_tests_cant": "All parameters and states.", "anchors": ["vistautils/logging_utils.py:configure_logging_from", "vistautils/logging_utils.py:_config_logging_from_params"]}
{"id": "C82", "title": "directory_to_key_value_store copies every file below the directory, once", "statement": "With a zip output that is not below the input directory, and file names whose keys are plain: if no two files at any depth below the input directory have the same key, the script succeeds and the store holds exactly one entry for each file, with its content; otherwise it raises ValueError and the store has entries of the files only. Either way nothing else changes except the directories made for the output. With an existing empty directory as output (apart from the input), the script succeeds and a source for the index serves for each key the content of a file with that key; if several files have it, all but one are silently lost (counterexample). A missing output directory is a ParameterError, one that is not empty an OSError, without any change. The key is the file name, or with strip_one_extension the name without its last dot and what follows, unless that dot is its first or last character. An input_directory that is no directory or an unknown key_function is a ParameterError (see C47 for the exception when it is a namespace) and nothing changes. The documented error for sub-directories is not raised: their files are copied (counterexample).", "quantifier": "all file-system states, parameter trees, interpreters, listing orders", "why_tests_cant": "All trees and orders.", "anchors": ["vistautils/scripts/directory_to_key_value_store.py:main", "vistautils/scripts/directory_to_key_value_store.py:key_function_from_params"]}
{"id": "C83", "title": "The entry point runs the program once, with the parameters of the file overridden by those of the command line", "statement": "parameters_only_entry_point runs the program exactly once with the parameters loaded from the file, overridden by the -p pairs, after logging has been configured from them; if loading, overriding or configuring fails, that exception is raised, the program is not run and no file changes. Overriding fails exactly if a name is empty, goes through another name given, is a namespace of the file or goes through a parameter of the file; otherwise the program sees, at every path, the last value given for it, or else that of the file. Values given are always strings, so an overridden integer, float, boolean or list is a ParameterError for its typed accessor. The documented parameters= argument always ends in an AttributeError (counterexample).", "quantifier": "all parameter files, command lines, programs, environments", "why_tests_cant": "All files and command lines.", "anchors": ["vistautils/parameters_only_entrypoint.py:parameters_only_entry_point", "vistautils/parameters_only_entrypoint.py:_real_parameters_only_entry_point"]}
{"id": "C84", "title": "tar_gz_to_zip copies exactly the requested members", "statement": "The zip file is never at the place of the tar file. When streaming, if every regular-file member that is to be kept (all, or with --omit-large-files those not larger than the cutoff) can be read, the script succeeds and the archive holds exactly one entry for each of them, in the order of the tar file, with its name and content, and nothing but the zip file changes; reading a name gives the content of the last member of that name. A member that cannot be read, or a damaged end, raises that exception, with the members before it in the archive. With --dont-stream, if the members are regular files with plain relative names for which nothing is in the way, the archive holds all of them (large ones too), the extracted files are removed again and only their directories stay; but an existing file with the name of a member is overwritten and removed (proved for every such file; the tar file itself must not be at a member's place), and a directory member is an OSError (counterexamples). If the zip file cannot be written there is an OSError and no change; if the tar file cannot be opened, the exception is raised after an older archive has been replaced by an empty one (counterexample to its being kept).", "quantifier": "all file-system states, arguments, working directories, member lists and behaviours of the tar reader", "why_tests_cant": "All member lists and states.", "anchors": ["vistautils/scripts/tar_gz_to_zip.py:main", "vistautils/scripts/tar_gz_to_zip.py:getargs"]}
{"id": "C85", "title": "A tar source gives every member once, in order, and only while it is open", "statement": "However a tar source (of bytes or with interpreted values) is entered, left, entered again and iterated over, with any number of generators advanced in any order: the pairs a generator has given are those of the first members offered for its key filter, in the order of the archive, each once; a generator that says it is at its end without having raised has given them all; no pair is given unless the source has been entered and not left since; and while it stays open, a generator obtained from it gives the next member each time it is advanced, or raises if that member cannot be read or interpreted, or stops if there is none. Leaving a source never entered is an AttributeError, items() of one an AssertionError (for interpreted values, when the generator is advanced). That a source was left is not always noticed: a generator with nothing left to extract may stop without complaint (counterexample).", "quantifier": "all archives, filters, key and interpretation functions, and all sequences of enter, exit, items and next", "why_tests_cant": "All schedules of several generators and re-entries.", "anchors": ["vistautils/key_value.py:TarGzipBytesLinearKeyValueSource", "vistautils/key_value.py:InterpretedLinearKeyValueSource", "vistautils/key_value.py:KeyValueLinearSource.interpret_values"]}
{"id": "C86", "title": "Annotated text can be read back", "statement": "If the text contains no '<', labels no blank or '>' (nor a leading '/'), attribute keys no '=' or '>' and values no '\"' or '>', then a reader of markup that knows nothing of how it was made gets the text back from the string annotated_text returns; and if moreover the spans clipped to the snippet are distinct and nested or disjoint, it finds exactly one element for each annotation overlapping the snippet, with its label, its attributes and exactly the offsets of its clipped span.  The order in which attributes are given never matters.  (Nothing is escaped: texts with markup in them, and two annotations with the same span, cannot be read back.)", "quantifier": "all texts, annotation collections and snippet offsets", "why_tests_cant": "Round trip over all inputs.", "anchors": ["vistautils/annotated_text_utils.py:HTMLStyleAnnotationFormatter.annotated_text", "vistautils/annotated_text_utils.py:to_start_tag", "vistautils/annotated_text_utils.py:to_end_tag"]}
{"id": "C87", "title": "windowed, drop, non_none, only and get_only are lazy on any iterator, however it is used", "statement": "Let it be an iterator, finite or endless, possibly raising, and let a program call next on windowed(it, w) (or drop(it, n)) and on it itself in any order.  The windows given so far are the first windows of the elements the generator took, in order; for k windows it takes at most k+w-1 elements (exactly, on an endless iterator, where every request gives a window of length w); it ends only if it ended, having given every window (every suffix too with partial_windows), raises only what it raised, and after its end never touches it again.  drop gives the elements it took without the first n and takes no more than needed.  non_none gives the elements it took that are not None and for each request takes elements only up to the first that is not None (a request returns iff there still is an answer other than None).  only and get_only (on iterators without a length) ask at most twice, also on endless iterators, and raise what it raises.  No element is lost or delivered twice.", "quantifier": "all iterators (as the outcome of each __next__ call), all window sizes, all schedules of calls", "why_tests_cant": "All schedules and endless inputs.", "anchors": ["vistautils/iter_utils.py:windowed", "vistautils/iter_utils.py:drop", "vistautils/iter_utils.py:_complete_windows", "vistautils/iter_utils.py:_possibly_incomplete_windows"]}
{"id": "C88", "title": "Only bounded ranges survive pickling", "statement": "A range, range set or range map that has been pickled and unpickled (or deep-copied) still contains (looks up) the same values. But the copy of a range without a lower (upper) bound claims to have one, asking for its endpoint is a ValueError, it is not equal to the original, and a range with bounds cannot be asked whether it encloses it (ValueError). A range set with two or more ranges, one of them without lower bound, cannot be unpickled at all (ValueError); any other can, and is equal to the original exactly if all its ranges are bounded on both sides. A range map can be unpickled exactly if all its keys are bounded on both sides or it has a single key, which has no lower bound; it is equal to the original exactly if all keys are bounded on both sides.", "quantifier": "all ranges, all histories of range sets, all range maps, over any linearly ordered endpoint type", "why_tests_cant": "All ranges, sets and maps.", "anchors": ["vistautils/range.py:_BelowAll", "vistautils/range.py:_AboveAll", "vistautils/range.py:_Cut.compare_to", "vistautils/range.py:RangeSet.__getstate__", "vistautils/range.py:_SortedDictRangeSet.__setstate__", "vistautils/range.py:ImmutableRangeMap.__reduce__"]}
{"id": "C89", "title": "Attributes declared with attrutils are what their declarations promise", "statement": "Constructing an object of a class whose attributes are declared with attrutils succeeds exactly if the arguments fit the parameters (all attributes but private builders, by position or keyword) and every attribute can be what is promised: an instance of one of the classes named, at whatever depth of tuples (attrib_instance_of, defaults included), or None (attrib_opt_instance_of, None if not given); the argument or what the factory returned for this object; the immutable collection of the argument, or the empty one for None or no argument (attrib_opt_immutable). Otherwise the exception is a TypeError or one raised by a factory or collection type. In any history of constructor calls no builder is shared by two objects. A declaration is a ValueError exactly if the type is not an immutable collection, else a TypeError exactly if an argument is given in two ways, among them any positional default for attrib_opt_instance_of; a class cannot be defined (ValueError) exactly if a required attribute follows one that is not.", "quantifier": "all classes with any declarations, all arguments, all factories with any state, all histories of constructor calls", "why_tests_cant": "All classes, arguments and histories.", "anchors": ["vistautils/attrutils.py:attrib_instance_of", "vistautils/attrutils.py:attrib_opt_instance_of", "vistautils/attrutils.py:attrib_factory", "vistautils/attrutils.py:attrib_immutable", "vistautils/attrutils.py:attrib_private_immutable_builder", "vistautils/attrutils.py:attrib_opt_immutable", "vistautils/attrutils.py:opt_instance_of", "vistautils/attrutils.py:_empty_immutable_if_none"]}
{"id": "C90", "title": "The fully-qualified name of a class evaluates to the class", "statement": "fully_qualified_name is the name of the module, a dot and the (nested) name of the class; the name alone for built-in classes; for a module its name. Two classes not nested in classes have the same name exactly if they have the same module and name (a nested class can have the name of a class of another module, or of a module: counterexample). In a Python that follows the rules for dotted names and imports, Parameters.evaluate on the fully-qualified name of a class at the top level of an importable module is that class if it has the expected type, else a ParameterError, provided the context defines no package of the module; on the name of a built-in class likewise. Where the context (by default the local variables of evaluate, such as name or context) defines the first word, that is what the text means, so a class of a package called name is a ParameterError (counterexample). A class nested in a class is always a ParameterError (counterexample), except in a namespace that lists its module under import.", "quantifier": "all classes, modules, parameter trees, contexts, interpreters that follow the rules", "why_tests_cant": "All modules, classes and contexts.", "anchors": ["vistautils/class_utils.py:fully_qualified_name", "vistautils/class_utils.py:fully_qualified_name_of_type", "vistautils/parameters.py:Parameters.evaluate"]}
{"id": "C91", "title": "Checkpoints survive programs that are killed", "statement": "For every history of programs using the same checkpoint directory one after the other, in which each call (from_directory, set, reset_all) either completes or is killed at any point between its system calls: a name whose set returned is a checkpoint, unless a reset_all was begun since; a name that is a checkpoint was set, or its set was begun, since the last completed reset_all (or was there at the start); nothing outside the directory changes except that directories above it may be made. Whatever happened, a new program gets the checkpoints and all its calls succeed. A reset_all that was killed can leave some of the checkpoints and remove others, and can leave the directory missing, in which case set raises until from_directory is called again (counterexamples).", "quantifier": "all histories of calls, all points at which a process is killed, all directories and file systems", "why_tests_cant": "Every interleaving of completed and killed calls.", "anchors": ["vistautils/checkpoints.py:Checkpoints.from_directory", "vistautils/checkpoints.py:_CheckPointDirectory.set", "vistautils/checkpoints.py:_CheckPointDirectory.reset_all", "vistautils/checkpoints.py:_CheckPointDirectory.__contains__"]}
{"id": "C92", "title": "What a killed directory sink leaves", "statement": "A session of a directory key-value sink over an empty directory, killed at any point between its system calls, changes nothing outside the directory, and either the directory is missing (killed while entering) or for some first calls of put, which have returned: the last value of each of their keys is in its file in full (unless a call for the same key was under way); the file of the call under way is as before or holds a beginning of the value; the index is missing unless all calls have returned, and then holds a beginning of what belongs there; there is nothing else. Without the index, opening the directory as a source raises OSError. If a call had returned, or the directory is missing, running the program again raises OSError on entering the sink and changes nothing. A process killed while leaving the sink can leave an index that silently lacks keys or sends a key to the value of another (counterexamples).", "quantifier": "all sequences of puts with file-name keys, all points at which the process is killed, all file systems", "why_tests_cant": "Every crash point of every session.", "anchors": ["vistautils/key_value.py:_DirectoryCharKeyValueSink", "vistautils/key_value.py:_DirectoryBytesKeyValueSink", "vistautils/key_value.py:KeyValueSource.from_doc_id_to_file_map", "vistautils/io_utils.py:write_doc_id_to_file_map"]}
{"id": "C93", "title": "What a killed write to a file leaves", "statement": "CharSink.to_file(p).write(text) and ByteSink.to_file(p).write(data), killed at any point between their system calls: the file is as before or holds a beginning of what was to be written, missing directories above it may have been made, and nothing else is changed. If the write would have succeeded, running it again after the kill succeeds and leaves what an undisturbed write leaves; if it would have raised, nothing is changed. The write is not atomic: the old content can be gone with nothing of the new there (counterexample).", "quantifier": "all paths, contents, file systems and points at which the process is killed", "why_tests_cant": "Every crash point.", "anchors": ["vistautils/io_utils.py:CharSink.to_file", "vistautils/io_utils.py:ByteSink.to_file", "vistautils/io_utils.py:_FileCharSink", "vistautils/io_utils.py:_FileByteSink"]}
{"id": "C94", "title": "Processes can share a checkpoint directory", "statement": "Any number of processes, each getting the checkpoints of the same directory and then setting names and asking for names, under every schedule of their system calls (also when they make the directory and its parents at the same time): no call raises; an answer yes is only given for a name that was there at the start or whose set has begun; an answer no only if, when the question began, the name was not there at the start, no set of it had returned and nobody had been told yes; what is there at any time are at least the names whose set returned and at most those whose set has begun; nothing there is lost or changed, and outside the directory only directories above it are made. Every schedule is finite and ends with all processes done. A process alone does what C68 says, and can be killed only in the states of C91. With reset_all it is otherwise: a set between the removal of the directory and its making raises (counterexample).", "quantifier": "all numbers of processes, all programs without resets, all schedules of system calls, all file systems", "why_tests_cant": "Every interleaving of system calls.", "anchors": ["vistautils/checkpoints.py:Checkpoints.from_directory", "vistautils/checkpoints.py:_CheckPointDirectory.set", "vistautils/checkpoints.py:_CheckPointDirectory.__contains__", "vistautils/checkpoints.py:_CheckPointDirectory.reset_all"]}
{"id": "C95", "title": "A program writes the same through every character sink", "statement": "Let the body of a with block on a sink's open() only write: pass texts to write and writelines, flush, ask whether it may write or is at a terminal, and decide by nothing else (not by what write returns). Then it ends with the same result or exception whether the sink is to_nowhere(), to_string() or to_file(p) (unless something is in the way of the file: OSError and no change); after it, also if it raised, the last string written, or the content of the file, is exactly the texts it wrote one after the other; to_nowhere leaves nothing, takes texts whatever was done before, and raises (NotImplementedError) exactly when asked to read, to seek, to truncate or for its buffer. sink.write(data) is such a block. to_nowhere is noticed by a program that looks at closed (always true), at what write returns (None), or that passes writelines an iterator that raises (never run) (counterexamples).", "quantifier": "all bodies (as trees of calls and replies), texts, earlier uses of the sink, file systems", "why_tests_cant": "All programs.", "anchors": ["vistautils/io_utils.py:CharSink.to_nowhere", "vistautils/io_utils.py:CharSink.to_string", "vistautils/io_utils.py:CharSink.to_file", "vistautils/io_utils.py:CharSink.write", "vistautils/io_utils.py:_NullCharSink", "vistautils/io_utils.py:StringCharSink", "vistautils/io_utils.py:_FileCharSink"]}
{"id": "C96", "title": "What a killed zip sink leaves", "statement": "Let sessions of zip sinks (with the default keys, overwriting or not) run one after the other on a path without a file, each to its end or killed at any point, also within a write. Each killed one leaves what was there, or a file that is not a zip file, or exactly what it should have left; each one that runs to its end leaves what it should, where an unreadable file counts as empty. While the path holds nothing readable every source raises on entering; otherwise a source serves exactly that store, and in any case never a value that was not put for its key; after an overwriting session that runs to its end, exactly what that session put. Whatever was killed, a further session can be run, and its puts raise (ValueError) exactly for the keys that are there. But a killed session, appending or not, can lose everything put by earlier completed ones, and the next appending session then succeeds without a sign of it (counterexample).", "quantifier": "all histories of completed and killed sessions, all kill points, all values, all allowed keys", "why_tests_cant": "Every kill point in every history.", "anchors": ["vistautils/key_value.py:_ZipKeyValueSink", "vistautils/key_value.py:_ZipFileKeyValueSource.__enter__", "vistautils/key_value.py:KeyValueSink.zip_character_sink", "vistautils/key_value.py:KeyValueSink.zip_bytes_sink"]}
{"id": "C97", "title": "The life of a zip sink and of a zip source", "statement": "A zip sink can be made unless it has a function to read keys and none to write them (ValueError). Whatever is called on one sink object, in whatever order, and whatever else happens to the file in between (not entering it while it is open): put before entering raises AssertionError, leaving AttributeError; put(k, None), put of a key in the list of the file when the sink was entered or of a key that got past these checks before in the life of the object, put of something that is neither a string nor bytes, and put after leaving raise ValueError; an exception of the file name function is passed on; any other put succeeds; leaving twice raises ValueError if there is a function to write keys. Whenever the sink is not open, a source for the path offers exactly the values put successfully since the sink was last entered (and, appending, those that were there), and lists exactly the keys the sink refuses. So an appending sink object may be used for several sessions like a new one each time; an overwriting one may not: it refuses the keys of its earlier sessions and lists them without values (counterexample), as is a key whose put failed. A source offers the store it was last entered with, only until it is left: otherwise its methods and leaving raise AssertionError; entering without a file raises OSError and changes nothing. With any keys function, or None, and whatever is in the files: entering raises what the keys function raises, and the source is then open all the same; while it is open keys() is what the keys function last returned (None if it is None or has only raised) and the values are those of the file it was last entered with. (So after a failed entering a used source lists the keys of the earlier file: counterexample.)", "quantifier": "all sequences of calls on a sink or source object, all changes of the file in between, all values and all keys without line feed", "why_tests_cant": "Every history of an object.", "anchors": ["vistautils/key_value.py:_ZipKeyValueSink", "vistautils/key_value.py:_ZipFileKeyValueSource", "vistautils/key_value.py:KeyValueSink.zip_character_sink", "vistautils/key_value.py:KeyValueSink.zip_bytes_sink", "vistautils/key_value.py:KeyValueSource.zip_character_source", "vistautils/key_value.py:KeyValueSource.zip_bytes_source"]}
{"id": "C98", "title": "Directory sinks, whatever is done with them", "statement": "Any number of sink objects for one directory, their methods called in any order, also outside with blocks, and the directory possibly emptied by somebody else in between (the directory holds only files, or is missing and could be made; keys are plain file names): put and leaving a sink always succeed, making the directory if it is missing; put writes the value to the file of its key; leaving writes to _index exactly the keys put through this object since it was last entered successfully, in order, with the paths of their files; entering succeeds iff the directory is there and empty, and otherwise raises OSError and changes nothing; nothing outside the directory changes except that directories above it are made. So unless somebody empties the directory, entering succeeds only before anything has been put or a sink left, and a source made from _index serves exactly the keys put through the object left last, up to then, each with the last value put for it through any object. (So there is no second with block, a value put after the block is in no source, and of two sinks for a directory one loses its keys: counterexamples.)", "quantifier": "all sequences of calls on any number of sink objects for a directory, all keys that are plain file names, all values, all states of the file system", "why_tests_cant": "Every history of the objects.", "anchors": ["vistautils/key_value.py:_DirectoryCharKeyValueSink", "vistautils/key_value.py:_DirectoryBytesKeyValueSink", "vistautils/io_utils.py:write_doc_id_to_file_map"]}
{"id": "C99", "title": "Parameters do not share dictionaries with the program", "statement": "Dictionaries are objects that may be reachable in several ways and may be changed later. from_mapping on a nested dictionary (in which no Parameters object has a dictionary in it) changes no dictionary, has the outcome that the nested dictionary as it looks at the time of the call says (unless it is nested deeper than Python's limit of recursion; a dictionary that contains itself at some depth is never converted), and the object made looks the same forever, whatever is done to any dictionaries afterwards. The same holds of from_key_value_pairs with any values, provided no name is assigned below the name of an earlier pair whose value is a dictionary; without that proviso it may change a dictionary of the caller, or set two parameters with one pair (counterexamples). as_nested_dicts changes no dictionary that was there, and all dictionaries in its result, at every depth, are new, so the result may be changed without an effect on the parameters or on other results. (Leaves are kept as they are; lists among them are shared.)", "quantifier": "all heaps of dictionaries (shared, nested, cyclic), all lists of pairs, all later changes", "why_tests_cant": "Aliasing: every heap and every later change.", "anchors": ["vistautils/parameters.py:Parameters.from_mapping", "vistautils/parameters.py:Parameters.from_key_value_pairs", "vistautils/parameters.py:Parameters.as_nested_dicts"]}
{"id": "C100", "title": "Equality and hash of Parameters", "statement": "Two Parameters objects are equal exactly if their namespace prefixes are the same and they have the same keys with the same values, at every depth and whatever the order of the keys (numbers compare as numbers: True == 1 == 1.0). == is an equivalence. Equal objects agree on `in`, on which names can be looked up, on string(...) and, up to ==, on the values and namespaces found. from_mapping of two nested dictionaries that differ in the order of keys only raises for both or gives equal objects, and conversely equal objects come from equal dictionaries and have equal as_nested_dicts. unify with equal arguments raises the same or gives equal results. Equal objects have the same hash; hash raises TypeError exactly if there is a list or a mapping among the values at any depth. (Equal objects can differ for boolean and integer, and in the order of namespaced_items; a namespace is not equal to the object made from the same dictionary, as it has a prefix: counterexamples.)", "quantifier": "all parameter trees, nested dictionaries, names, hash functions", "why_tests_cant": "All trees, all orders of keys at all depths.", "anchors": ["vistautils/parameters.py:Parameters", "vistautils/parameters.py:Parameters.from_mapping", "vistautils/parameters.py:Parameters.as_nested_dicts", "vistautils/parameters.py:Parameters.unify", "vistautils/parameters.py:Parameters.get"]}
{"id": "C101", "title": "The scripts on key-value stores, from their parameters", "statement": "split_key_value_store and downsample_key_value_store, run with parameters whose namespace input describes a zip store or (with type _doc_id_binary_source_from_params) a document map all of whose files are there, do what C63, C65 and C66 say of the store described, also though the zip file or the files are read while the outputs are written, provided none of the outputs is one of these files; the input is unchanged afterwards. Splitting and then joining with the list of slices gives a zip store with the same entries. Both or neither of num_slices and explicit_split, or an input file that does not exist, raise ParameterError (see C47 for the exception when it is a namespace) and change nothing. With the documented input type file-map both scripts report success and all outputs are empty, whatever the input holds (counterexamples).", "quantifier": "all parameter trees describing a store, all stores with plain keys, all shuffles, all file-system states in which the outputs can be made", "why_tests_cant": "All stores and file systems.", "anchors": ["vistautils/scripts/split_key_value_store.py:main", "vistautils/scripts/downsample_key_value_store.py:main", "vistautils/scripts/join_key_value_stores.py:main", "vistautils/key_value.py:byte_key_value_source_from_params", "vistautils/key_value.py:byte_key_value_linear_source_from_params", "vistautils/key_value.py:_ZipFileKeyValueSource", "vistautils/key_value.py:_doc_id_binary_source_from_params"]}
{"id": "C102", "title": "Killed scripts on stores lose nothing, and can be run again", "statement": "However often split_key_value_store, downsample_key_value_store or join_key_value_stores has been started and killed, between any two system calls: everything but the outputs and directories made for them is as before (in particular the input), each output is as it was before, or a file that is no zip file (opening it as a store raises), or the finished store (after a join that would raise because of a key in two inputs: a store with entries of the inputs only); and the next run that is not killed gives exactly the result, or exception, of a first run that was never killed. A join into a directory (output.type file-map) that was killed has changed nothing outside of it, and left beginnings of values of the inputs under their keys, whole values (and, if no key occurs in two inputs, all of them) if there is anything of the index; while the directory is still empty, the next run does what the first would have done, else every further run raises OSError (ParameterError if the directory is missing) and changes nothing. Not kept: what was at an output before is lost as soon as the output is opened, and a second run of a finished even split that is killed while it writes the list of slices leaves a list that ends early while all slices are there: joining by that list reports success without the entries of the unlisted slices (counterexamples).", "quantifier": "all parameter trees, stores with plain keys, shuffles, file-system states in which the outputs can be made, all numbers of killed runs and all kill points", "why_tests_cant": "All crash points and histories of crashes.", "anchors": ["vistautils/scripts/split_key_value_store.py:main", "vistautils/scripts/split_key_value_store.py:_split_into_even_slices", "vistautils/scripts/split_key_value_store.py:_explicit_split", "vistautils/scripts/downsample_key_value_store.py:main", "vistautils/scripts/join_key_value_stores.py:main", "vistautils/key_value.py:_ZipBytesFileKeyValueSink"]}
{"id": "C103", "title": "Killed conversions lose nothing of their input, and can be run again", "statement": "However often tar_gz_to_zip or directory_to_key_value_store has been started and killed, between any two system calls: the input (tar file, directory) is as before. Streaming tar_gz_to_zip: only the zip file is changed, it is as before, missing, no zip file, or finished, and the next run that is not killed gives the result of a first run. With --dont-stream also directories of members and files with a beginning of a member's content may be left; the next run that is not killed copies all members and removes those files. directory_to_key_value_store to a zip file: the output is as before, no zip file, or a store with entries of the files only, and the next run gives the result, or exception, of a first run. To a directory: every file left in it holds a beginning of the content of a file with that key, all are complete once there is an index; if the directory is left existing and empty the next run succeeds like a first one; otherwise it and every further run raises and changes nothing. Not kept: an older zip file is lost at once, a killed --dont-stream leaves extracted files behind, and a killed run can leave the output directory missing, after which every run is a ParameterError (counterexamples).", "quantifier": "all tar files, directories, parameter trees, file-system states in which the outputs can be made, all numbers of killed runs and all kill points", "why_tests_cant": "All crash points and histories of crashes.", "anchors": ["vistautils/scripts/tar_gz_to_zip.py:main", "vistautils/scripts/directory_to_key_value_store.py:main", "vistautils/key_value.py:_ZipBytesFileKeyValueSink", "vistautils/key_value.py:_DirectoryBytesKeyValueSink"]}
{"id": "C104", "title": "Lists in parameters are passed on as they are", "statement": "Lists are objects that the program may change at any time. from_mapping, from_key_value_pairs, unify (also with a mapping), namespace, lookup, namespaced_items and as_nested_dicts never read or change what a list holds: the lists in their results are the list objects of their arguments, in the places in which their outcome with opaque objects has them, so whatever the lists hold at any later moment, each result looks like what would be made from the arguments as they look then; the exceptions, and what is in the parameters, do not depend on what lists hold. arbitrary_list and optional_arbitrary_list give the list object itself. So Parameters are no snapshot: changing the list that went in, or the list that an accessor gave, changes the parameters (counterexample).", "quantifier": "all mappings, pairs, parameters, names and defaults with list objects in any places, and all contents of the lists at all moments", "why_tests_cant": "All later changes of any list.", "anchors": ["vistautils/parameters.py:Parameters.from_mapping", "vistautils/parameters.py:Parameters.unify", "vistautils/parameters.py:Parameters.as_nested_dicts", "vistautils/parameters.py:Parameters.namespaced_items", "vistautils/parameters.py:Parameters.arbitrary_list"]}
{"id": "C105", "title": "Values that cannot be compared", "statement": "Where comparing two values of different kinds (an int and a str) raises TypeError: making a range raises TypeError iff its two endpoints are of different kinds; `v in range` raises TypeError iff v is of another kind than an endpoint. Of two ranges whose endpoints are of the same kind all operations do what they do where everything can be compared; of two ranges whose endpoints are not, intersection and intersects raise TypeError, and is_connected, encloses and span raise TypeError unless infinite sides alone settle the answer, which is then correct. Adding a range to a set raises TypeError iff the range is not empty and some endpoint of it is of another kind than some endpoint in the set, and the set is then as before; add_all stops at the first such range, those before it have been added. So, whatever is attempted with values of whatever kinds, a set is always the result of the calls that succeeded, its endpoints are all of one kind, and everything proved of range sets holds of it. `v in set` and range_containing raise TypeError iff some endpoint in the set is of another kind than v; encloses on a set raises TypeError or, where an infinite side settles it, gives False. A range map can be made iff all endpoints of its keys are of one kind and it can be made where everything can be compared; looking up a value of another kind raises TypeError. (A set of integer ranges that covers everything contains every string, and accepts ranges of strings; rightmost_containing_or_below of a string may give a range of integers: counterexamples.)", "quantifier": "all endpoint types with any partition into kinds, linearly ordered within each kind; all ranges, all histories of calls with exceptions caught, all values", "why_tests_cant": "All histories, all kinds; a raise in the middle of a change must not leave half of it.", "anchors": ["vistautils/range.py:_Cut.compare_to", "vistautils/range.py:Range", "vistautils/range.py:_MutableSortedDictRangeSet.add", "vistautils/range.py:MutableRangeSet.add_all", "vistautils/range.py:_MutableSortedDictRangeSet.clear", "vistautils/range.py:ImmutableRangeMap", "vistautils/range.py:_value_below", "vistautils/range.py:_value_at_or_below", "vistautils/range.py:_clear"]}
{"id": "C106", "title": "Zip sinks with any key functions", "statement": "A zip sink with any function to read and any to write keys (which may raise, and may first add entries to the archive, if not named like those of keys; a function to read without one to write is a ValueError), and any history of enter, put and exit on one sink object with exceptions caught, never entered while open: a put returns iff the sink is open, the value is str or bytes, the key is not refused and the file name function does not raise, and otherwise raises what C106_put says (AssertionError before the sink was first entered, ValueError, or what the file name function raises). A key is refused iff the reading function told of it or it was passed to put, not with None, after the sink was first entered. Entering calls the reading function with an archive that has the values at the path (empty, overwriting), and leaving calls the writing function with an archive that has the values put and with exactly the refused keys, each once; both pass on what the function raises, and the sink is then open all the same. Once the sink has been left without an exception, or the object is thrown away, the archive at the path gives exactly the values it had (appending) and those put successfully since the sink was entered; nothing put successfully is lost, even if leaving raises again and again. While the sink is open the file cannot be read, or, appending and with nothing put, is as before. If the reading function raises without having added entries, an appending sink leaves the store as it was, but an overwriting sink has emptied it although the block never ran (counterexample). The default key functions meet the conditions.", "quantifier": "all key functions and file name functions that give the keys in use different names, all histories of calls, all files at the path", "why_tests_cant": "All histories with exceptions at any call, all user functions.", "anchors": ["vistautils/key_value.py:_ZipKeyValueSink.__init__", "vistautils/key_value.py:_ZipKeyValueSink.put", "vistautils/key_value.py:_ZipKeyValueSink.__enter__", "vistautils/key_value.py:_ZipKeyValueSink.__exit__"]}
{"id": "C107", "title": "Ranges of Python numbers: equal numbers that are different objects, and NaN", "statement": "With endpoints and values that are Python numbers, where different objects can be equal (1, 1.0) and a number can be NaN (neither less than, equal to nor greater than any number): which factories raise ValueError and which values the ranges contain is as C107_factories and C107_unbounded say for all numbers, NaN included. NaN is in a range iff the range has no lower bound; a range with a NaN endpoint is not equal to itself and not empty. Without NaN endpoints, everything a range, a range set after any history, or a range map does is what it does with the numbers the objects stand for, whichever of several equal objects are used; equal ranges have equal hashes (if equal numbers have) and contain the same values. A range set contains a value, NaN included, iff one of the ranges added since the last clear does; range_containing and rightmost_containing_or_below of NaN are the member without lower bound, if any. A range map raises ValueError iff a key is empty or two keys touch or overlap, and m[v], for any v including NaN, is the value of the key that contains v, None iff no key does. Once a range with upper endpoint NaN is in a range set, adding another range can remove values from the set (counterexample).", "quantifier": "all types of numbers with NaN and equal but different objects, all endpoints and values, all histories of range sets and all mappings without NaN endpoints", "why_tests_cant": "All numbers, all histories.", "anchors": ["vistautils/range.py:_Cut", "vistautils/range.py:_BelowValue", "vistautils/range.py:_AboveValue", "vistautils/range.py:Range", "vistautils/range.py:RangeSet", "vistautils/range.py:MutableRangeSet.add", "vistautils/range.py:ImmutableRangeMap"]}
{"id": "C108", "title": "Number parameters that are NaN or infinite", "statement": "floating_point and integer return a value iff it is found at the name (or is the default), has the type asked for (True and False count as integers) and passes the valid range if there is one, and otherwise raise ParameterError (see C47 for the exception when it is a namespace). For floats that may be NaN or infinite and ranges with any numbers as endpoints, which values pass is as C108_valid_range says for each way of making a range: infinities count as the numbers they are, and for NaN every comparison is false. So NaN passes iff there is no valid range or the valid range has no lower bound: floating_point(name, Range.at_most(4)) returns NaN (counterexample to the documented check). optional_floating_point does the same if the name is there, and otherwise gives the default, None if the default equals 0 (also -0.0), and ParameterError if the default is a float that does not pass.", "quantifier": "all parameters, names, defaults, valid ranges and float values including NaN and infinities", "why_tests_cant": "All values and ranges.", "anchors": ["vistautils/parameters.py:Parameters.floating_point", "vistautils/parameters.py:Parameters.optional_floating_point", "vistautils/parameters.py:Parameters.integer", "vistautils/range.py:Range.__contains__"]}
{"id": "C109", "title": "Directory sinks with keys that are paths", "statement": "A directory sink stores the value of a key that is a relative path without '..' in the file below its directory that the key names, making the directories in between. In an empty directory, the calls of put in a session succeed up to the first key whose file would lie below the file of an earlier key, or be a directory above one; that call raises OSError, which comes out of the session. So a session succeeds iff no two keys clash so. In both cases nothing outside the directory is changed, and the source read from the index serves exactly the keys put, each with the last value put for any key that names the same file (text with its line ends translated), and entering a sink for the directory again raises OSError and changes nothing. Without the restriction this fails: a key with '..' or an absolute one overwrites a file outside the directory, and a key in a directory _index makes writing the index fail (counterexamples).", "quantifier": "all file systems, directories and sequences of calls with keys that are relative paths without '..', without tab, line feed or carriage return, without white space at the ends of the key and of its last name, and whose first name is not _index", "why_tests_cant": "All sequences of keys, and all file systems.", "anchors": ["vistautils/key_value.py:_DirectoryCharKeyValueSink.put", "vistautils/key_value.py:_DirectoryCharKeyValueSink.__exit__", "vistautils/key_value.py:_DirectoryBytesKeyValueSink.put", "vistautils/key_value.py:_DirectoryBytesKeyValueSink.__exit__"]}
{"id": "C110", "title": "Parameters, dictionaries and lists that all may change", "statement": "Dictionaries and lists are objects that may be in each other, be reachable in several ways, and be changed at any time. from_mapping on a dictionary (in which no Parameters object has a dictionary in it) and from_key_value_pairs (when no name is assigned below that of an earlier pair whose value is a dictionary) have at any later moment the outcome that they would have for the dictionaries as they were at the time of the call, with the lists in them (outside other lists) as they look at that later moment; in particular at the time of the call the object looks like what would be made from what the arguments look like, everything in them included. The result of as_nested_dicts looks, as long as its own new dictionaries are not changed, like the nested dictionary of what the parameters look like at that moment. So a dictionary in a list is neither converted nor copied: changing it changes the parameters (counterexample).", "quantifier": "all heaps of dictionaries and lists at the time of the call, with cycles and sharing, and all heaps at all later moments", "why_tests_cant": "All heaps, histories and values.", "anchors": ["vistautils/parameters.py:Parameters.from_mapping", "vistautils/parameters.py:Parameters.from_key_value_pairs", "vistautils/parameters.py:Parameters.as_nested_dicts"]}
{"id": "C111", "title": "Text that UTF-8 cannot encode", "statement": "A string with a lone surrogate cannot be encoded. Writing strings one after the other to a file made by CharSink.to_file raises ValueError exactly if one of them has a surrogate; the file then holds exactly the strings before it, and what it held before is lost. A put of such a string to a directory sink raises ValueError and leaves an empty file; whether that ends the session or the program catches it and goes on, the directory then serves the keys of the calls that did not raise, but a key whose last put raised, after one that did not, has the empty string (silently). A put to a zip sink raises ValueError and changes no value, but the key is listed afterwards, and looking it up raises KeyError.", "quantifier": "all strings with and without surrogates, all lists of strings and all sessions with them, all file systems and archives", "why_tests_cant": "All strings, sessions and file systems.", "anchors": ["vistautils/io_utils.py:CharSink.to_file", "vistautils/io_utils.py:CharSink.write", "vistautils/io_utils.py:_FileCharSink.open", "vistautils/key_value.py:_DirectoryCharKeyValueSink", "vistautils/key_value.py:_ZipKeyValueSink.put"]}
{"id": "C112", "title": "Directory sinks when the operating system fails", "statement": "If calls of put on a directory sink (for text or bytes) fail with OSError, at whatever point (making a directory, opening the file, or writing, when some of the bytes are in the file) and that ends the session or the program catches it, then leaving the sink writes an index of exactly the keys of calls that did not fail. Each is served with what is in its file: the value put last, unless a later call for the same file failed while writing; then the first bytes of that value, silently. Failures before anything is written, or followed by a call that does not fail, do no harm. Nothing outside the directory is changed.", "quantifier": "all sequences of calls with any keys (of which none is a path above another), values and failures, all file systems; entering and leaving the sink does not fail", "why_tests_cant": "All failure points in all histories.", "anchors": ["vistautils/key_value.py:_DirectoryCharKeyValueSink", "vistautils/key_value.py:_DirectoryBytesKeyValueSink", "vistautils/io_utils.py:CharSink.to_file", "vistautils/io_utils.py:ByteSink.to_file", "vistautils/io_utils.py:CharSink.write", "vistautils/io_utils.py:ByteSink.write"]}
