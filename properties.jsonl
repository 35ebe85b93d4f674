{"id": "C01", "title": "an+b position formula", "statement": "For a selector argument an+b and a parent with `total` candidate children, the positions selected by :nth-child/:nth-of-type are exactly the p in 1..=total for which some k >= 0 satisfies a*k+b = p, each once, listed in ascending position order (so no position outside the parent is ever produced).", "quantifier": "every integer a and b and every number of children", "why_tests_cant": "the formula has three unbounded integer parameters; rounding errors show up only for particular residues (for instance 3n-1, or 2n+3 with two children)", "anchors": ["src/mesdoc/selector/pattern.rs:Nth::get_allowed_indexs", "src/mesdoc/utils.rs:divide_isize"]}
{"id": "C02", "title": "Flooring and ceiling division", "statement": "The integer division helper with rounding mode Floor/Ceil/Round returns the mathematical floor, ceiling or nearest integer of a/b.", "quantifier": "every integer a and every non-zero integer b, each rounding mode", "why_tests_cant": "unbounded integers with sign and remainder case splits", "anchors": ["src/mesdoc/utils.rs:divide_isize"]}
{"id": "C03", "title": "Class list splitting and joining", "statement": "Reading a class attribute yields exactly the maximal runs of non-space characters in order, and writing a list of valid names back and reading it again returns the same list.", "quantifier": "every attribute string and every list of non-empty names without spaces", "why_tests_cant": "arbitrary strings with arbitrary runs of white space", "anchors": ["src/mesdoc/utils.rs:get_class_list", "src/mesdoc/utils.rs:class_list_to_string"]}
{"id": "C04", "title": "add_class", "statement": "After add_class(names) every given name is a class of every element in the set, all classes that were there before are kept in order, no name is added twice, and calling it again with the same names changes nothing.", "quantifier": "every class attribute value and every string of names", "why_tests_cant": "arbitrary class strings, duplicates and white space", "anchors": ["src/mesdoc/interface/elements.rs:add_class", "src/mesdoc/interface/elements.rs:has_class", "src/mesdoc/utils.rs:get_class_list"]}
{"id": "C05", "title": "remove_class", "statement": "After remove_class(names) no given name is a class of the element and every class not named is kept, in order; the call never panics.", "quantifier": "every class attribute value and every string of names in any order, with duplicates", "why_tests_cant": "the outcome depends on the order and multiplicity of the names relative to the attribute, which is unbounded", "anchors": ["src/mesdoc/interface/elements.rs:remove_class", "src/mesdoc/utils.rs:retain_by_index"]}
{"id": "C06", "title": "toggle_class", "statement": "toggle_class(names) removes each given class that is present and adds each one that is absent; classes not named are untouched; toggling the same names twice restores the class set.", "quantifier": "every class attribute value and every string of distinct names", "why_tests_cant": "unbounded orderings", "anchors": ["src/mesdoc/interface/elements.rs:toggle_class", "src/mesdoc/utils.rs:retain_by_index"]}
{"id": "C07", "title": "Attribute write then read", "statement": "After set_attr(name, value) reading the attribute under any letter case of name returns the value that was set, and every other attribute reads as before.", "quantifier": "every attribute list, every name and value, any history of earlier attribute writes", "why_tests_cant": "arbitrary histories of writes, arbitrary letter case and quote characters", "anchors": ["src/lib.rs:set_attribute", "src/lib.rs:get_attribute"]}
{"id": "C08", "title": "Attribute removal", "statement": "After remove_attr(name) has_attr(name) is false under any letter case, and every other attribute reads as before.", "quantifier": "every attribute list and name in any letter case", "why_tests_cant": "arbitrary attribute histories and letter case", "anchors": ["src/lib.rs:remove_attribute", "src/lib.rs:get_attribute"]}
{"id": "C09", "title": "Attribute values cannot escape their quotes", "statement": "After set_attr the stored value never contains, unescaped, the quote character the attribute will be written with.", "quantifier": "every attribute list, every name and value", "why_tests_cant": "a value is an arbitrary string; the wrong combination of earlier quote and new value is one in many", "anchors": ["src/lib.rs:set_attribute"]}
{"id": "C10", "title": "Attribute selectors", "statement": "[name], [name=v], [name^=v], [name$=v], [name*=v], [name~=v], [name|=v], [name!=v] select exactly the elements whose attribute is present / equal / has prefix / has suffix / has substring / has word / equals v or starts with v- / is absent or differs, with an empty v never matching for ^=, $=, *=, ~=.", "quantifier": "every attribute value and every operand", "why_tests_cant": "two unbounded strings per mode", "anchors": ["src/mesdoc/rules/attr.rs:add_attr"]}
{"id": "C11", "title": "Substring search", "statement": "contains_chars answers true exactly when the needle occurs as a contiguous part of the haystack; :contains(text) selects exactly the elements whose text content contains text.", "quantifier": "every pair of strings, every element", "why_tests_cant": "arbitrary strings", "anchors": ["src/mesdoc/utils.rs:contains_chars", "src/mesdoc/rules/pseudo.rs:pseudo_contains"]}
{"id": "C12", "title": "Document order comparison", "statement": "The comparison used for ordering nodes is a strict total order on the nodes of a document that equals document order: a node is before another exactly when it is a proper ancestor of it or lies in an earlier subtree of a common parent; two nodes compare equal only if they are the same node.", "quantifier": "every pair of nodes of every well formed tree", "why_tests_cant": "trees of unbounded depth and width", "anchors": ["src/mesdoc/interface/elements.rs:get_tree_indexs", "src/mesdoc/interface/elements.rs:compare_indexs"]}
{"id": "C13", "title": "Ancestor relation test", "statement": "The relation test reports Ancestor / Descendant / Equal / otherwise exactly according to the tree.", "quantifier": "every pair of nodes of every well formed tree", "why_tests_cant": "trees of unbounded depth and width", "anchors": ["src/mesdoc/interface/elements.rs:relation_of"]}
{"id": "C14", "title": "Sort and deduplicate", "statement": "sort_and_unique returns the same nodes, in strictly increasing document order, each once.", "quantifier": "every list of nodes of one document", "why_tests_cant": "all lists, including repeated and shuffled nodes", "anchors": ["src/mesdoc/interface/elements.rs:sort", "src/mesdoc/interface/elements.rs:unique", "src/mesdoc/interface/elements.rs:sort_and_unique"]}
{"id": "C15", "title": "Union of two sets (add)", "statement": "a.add(b) contains exactly the elements of a and b, each once, in document order.", "quantifier": "every two strictly ordered element sets of one document", "why_tests_cant": "the merge is an interleaving algorithm with a binary search; the result depends on the relative order of two unbounded lists", "anchors": ["src/mesdoc/interface/elements.rs:add"]}
{"id": "C16", "title": "filter_in and not_in split the set", "statement": "x.filter_in(y) and x.not_in(y) split x: every element of x is in exactly one, order is kept, and for document ordered sets filter_in keeps exactly the elements of x that are in y; is_in is true iff filter_in is non-empty and is_all_in iff not_in is empty.", "quantifier": "every two element sets", "why_tests_cant": "pairs of unbounded lists", "anchors": ["src/mesdoc/interface/elements.rs:filter_in_handle", "src/mesdoc/interface/elements.rs:filter_in", "src/mesdoc/interface/elements.rs:not_in", "src/mesdoc/interface/elements.rs:is_in", "src/mesdoc/interface/elements.rs:is_all_in"]}
{"id": "C17", "title": "find is sound and complete", "statement": "find(selector) with one complex selector returns exactly the elements that match it: an element e is returned iff e satisfies the last compound and is linked by the selector's combinators, through elements satisfying the earlier compounds, to an element of the starting set.", "quantifier": "every well formed tree, every starting set, every complex selector", "why_tests_cant": "unbounded trees, sets and selectors", "anchors": ["src/mesdoc/interface/elements.rs:find", "src/mesdoc/interface/elements.rs:find_selector", "src/mesdoc/interface/elements.rs:select", "src/mesdoc/interface/elements.rs:select_by_rule"]}
{"id": "C18", "title": "find returns document order without duplicates", "statement": "The result of find is in document order and contains no element twice.", "quantifier": "every well formed tree, starting set and complex selector", "why_tests_cant": "depends on nesting of the intermediate matches", "anchors": ["src/mesdoc/interface/elements.rs:select_by_rule", "src/mesdoc/interface/elements.rs:unique_parents"]}
{"id": "C19", "title": "find does not panic", "statement": "find on a non-empty set with a selector that parses never panics.", "quantifier": "every well formed tree, every starting set, every parsed selector", "why_tests_cant": "a panic needs a particular nesting of intermediate matches", "anchors": ["src/mesdoc/interface/elements.rs:unique_parents", "src/mesdoc/interface/elements.rs:select_by_rule", "src/mesdoc/rules/pseudo.rs:make_asc_or_desc_nth_child_handle"]}
{"id": "C20", "title": "Selector lists are unions", "statement": "find(\"a, b\") returns exactly the elements returned by find(\"a\") or find(\"b\"), in document order, once.", "quantifier": "every tree and every two selectors", "why_tests_cant": "depends on how two unbounded result lists interleave", "anchors": ["src/mesdoc/interface/elements.rs:find_selector", "src/mesdoc/interface/elements.rs:add"]}
{"id": "C21", "title": "Reordering and look-up optimisation keep the meaning", "statement": "Sorting the simple selectors of a compound by priority and starting the search from the most specific compound (checking the rest upwards) returns the same elements as evaluating the selector left to right as written.", "quantifier": "every parsed selector, every tree", "why_tests_cant": "all selectors times all trees", "anchors": ["src/mesdoc/selector/mod.rs:Selector::optimize", "src/mesdoc/interface/elements.rs:find_selector", "src/mesdoc/interface/elements.rs:has_ele"]}
{"id": "C22", "title": "filter keeps exactly the matching elements", "statement": "filter(selector) keeps, in order, exactly the elements of the set that match the selector in the document.", "quantifier": "every tree, set and selector", "why_tests_cant": "unbounded", "anchors": ["src/mesdoc/interface/elements.rs:filter_type_handle", "src/mesdoc/interface/elements.rs:filter"]}
{"id": "C23", "title": "not is the complement of filter; is, is_all agree", "statement": "not(s) keeps exactly the elements filter(s) drops; is(s) holds iff filter(s) is non-empty; is_all(s) holds iff filter(s) keeps everything.", "quantifier": "every tree, set and selector", "why_tests_cant": "unbounded", "anchors": ["src/mesdoc/interface/elements.rs:not", "src/mesdoc/interface/elements.rs:is", "src/mesdoc/interface/elements.rs:is_all", "src/mesdoc/interface/elements.rs:filter_type_handle"]}
{"id": "C24", "title": "has and has_in", "statement": "has(s) keeps exactly the elements with a descendant matching s; has_in(t) keeps exactly the elements with a member of t as a descendant.", "quantifier": "every tree, set and selector", "why_tests_cant": "unbounded depth", "anchors": ["src/mesdoc/interface/elements.rs:has", "src/mesdoc/interface/elements.rs:has_in"]}
{"id": "C25", "title": "Structural navigation", "statement": "children, parent, parents, next, next_all, prev, prev_all and siblings return exactly the elements related to a member of the set by that relation.", "quantifier": "every tree and every set", "why_tests_cant": "unbounded trees and sets", "anchors": ["src/mesdoc/interface/elements.rs:children", "src/mesdoc/interface/elements.rs:parent", "src/mesdoc/interface/elements.rs:parents", "src/mesdoc/interface/elements.rs:next", "src/mesdoc/interface/elements.rs:next_all", "src/mesdoc/interface/elements.rs:prev", "src/mesdoc/interface/elements.rs:prev_all", "src/mesdoc/interface/elements.rs:siblings"]}
{"id": "C26", "title": "Filtered navigation stays inside the relation", "statement": "children(s), next(s), ... with a selector return only elements that the unfiltered call returns (for a single compound).", "quantifier": "every tree, set and compound selector", "why_tests_cant": "unbounded", "anchors": ["src/mesdoc/interface/elements.rs:children", "src/mesdoc/interface/elements.rs:select_by_rule", "src/mesdoc/rules/id.rs"]}
{"id": "C27", "title": "closest", "statement": "closest(s) returns, for each element, its nearest inclusive ancestor matching s, each once.", "quantifier": "every tree, set and selector", "why_tests_cant": "unbounded depth and selectors", "anchors": ["src/mesdoc/interface/elements.rs:closest"]}
{"id": "C28", "title": "Positional pseudo-classes", "statement": "first-child, last-child, only-child, nth-child, nth-last-child, first-of-type, last-of-type, nth-of-type, nth-last-of-type and only-of-type select exactly the elements at the stated position among their element siblings (of the same name).", "quantifier": "every tree, every set filtered, every an+b", "why_tests_cant": "unbounded number of siblings and parameters", "anchors": ["src/mesdoc/rules/pseudo.rs"]}
{"id": "C29", "title": "Printed selectors parse to themselves", "statement": "The text of a selector built from type, class, id, universal, attribute and pseudo-class parts, combinators and commas parses successfully to exactly those parts, in that structure.", "quantifier": "every selector syntax tree with valid identifiers", "why_tests_cant": "infinitely many selectors", "anchors": ["src/mesdoc/selector/mod.rs:Selector::from_str", "src/mesdoc/selector/pattern.rs", "src/mesdoc/selector/rule.rs:Rule::exec"]}
{"id": "C30", "title": "Selector parsing never panics", "statement": "Parsing any string returns a selector or an error, never a panic.", "quantifier": "every string", "why_tests_cant": "all strings", "anchors": ["src/mesdoc/selector/mod.rs:Selector::from_str", "src/mesdoc/selector/pattern.rs:exec", "src/mesdoc/selector/pattern.rs:Identity", "src/mesdoc/selector/pattern.rs:Nth"]}
{"id": "C31", "title": "Parsing stays usable", "statement": "After any history of parse calls, whatever they returned, parsing still works: an earlier bad selector cannot make a later good one fail.", "quantifier": "every history of parse calls", "why_tests_cant": "histories", "anchors": ["src/mesdoc/selector/mod.rs:Selector::from_str", "src/mesdoc/selector/mod.rs:SPLITTER", "src/mesdoc/selector/rule.rs:RULES"]}
{"id": "C32", "title": "Invalid selectors are reported, not fatal", "statement": "Calling any selector method with an unparsable selector returns an empty result and reports the error once; it does not panic, including on an empty set.", "quantifier": "every element set, every unparsable selector", "why_tests_cant": "all sets including the empty one, all methods", "anchors": ["src/mesdoc/interface/elements.rs:trigger_method", "src/mesdoc/interface/elements.rs:trigger_method_throw_error", "src/mesdoc/interface/elements.rs:find", "src/mesdoc/interface/elements.rs:closest"]}
{"id": "C33", "title": "Sibling indexes and parent links stay consistent", "statement": "After any sequence of insertions, removals and text replacements on nodes of a document, every child knows its parent and its own position, no node occurs twice, and there is no cycle.", "quantifier": "every well formed tree and every finite sequence of operations", "why_tests_cant": "unbounded histories", "anchors": ["src/lib.rs:remove_child", "src/lib.rs:insert_adjacent", "src/lib.rs:replace_with", "src/lib.rs:reset_next_siblings_index"]}
{"id": "C34", "title": "remove detaches exactly the element", "statement": "Removing an element takes exactly it (with its subtree) out of its parent and leaves all other child lists unchanged; removing it again changes nothing.", "quantifier": "every well formed tree and element, every number of repetitions", "why_tests_cant": "histories with stale handles", "anchors": ["src/lib.rs:remove_child", "src/mesdoc/interface/elements.rs:remove"]}
{"id": "C35", "title": "Insertion puts the node where asked", "statement": "append/prepend/before/after of one node puts it at the end/start/immediately before/immediately after, removes it from its old place, and leaves every other child list unchanged.", "quantifier": "every well formed tree, target and node accepted by validation", "why_tests_cant": "unbounded trees; moving within one list shifts indexes", "anchors": ["src/lib.rs:insert_adjacent"]}
{"id": "C36", "title": "Inserting several elements keeps their order", "statement": "append/prepend/before/after of a set of elements places them next to each other in the order of the set.", "quantifier": "every list of distinct nodes", "why_tests_cant": "lists of every length", "anchors": ["src/mesdoc/interface/elements.rs:insert"]}
{"id": "C37", "title": "Inserting cannot create cycles", "statement": "An insertion of a node into its own subtree is refused and leaves the tree unchanged; after any accepted insertion the tree is still acyclic. The same holds for replace_with.", "quantifier": "every tree, node and target", "why_tests_cant": "all ancestor chains", "anchors": ["src/lib.rs:validate_dom_change", "src/lib.rs:insert_adjacent", "src/lib.rs:replace_with"]}
{"id": "C38", "title": "A node is in one place only", "statement": "After inserting a set into several targets, every node has exactly one position in the document.", "quantifier": "every number of targets, elements and fragments", "why_tests_cant": "histories of moves", "anchors": ["src/lib.rs:insert_adjacent", "src/mesdoc/interface/elements.rs:insert"]}
{"id": "C39", "title": "replace_with", "statement": "replace_with puts the new node(s) exactly where the old element was, in order, and leaves its siblings unchanged.", "quantifier": "every tree, element and list of new nodes", "why_tests_cant": "unbounded lists and positions", "anchors": ["src/lib.rs:replace_with", "src/mesdoc/interface/elements.rs:replace"]}
{"id": "C40", "title": "Text content round trip", "statement": "After set_text(s) on an element the text content is s and it has no element children; on a text node the content is s; append_text/prepend_text extend the content at the end/start.", "quantifier": "every element, every string", "why_tests_cant": "arbitrary strings and nodes", "anchors": ["src/lib.rs:set_text", "src/lib.rs:text_contents", "src/lib.rs:append_text", "src/lib.rs:prepend_text"]}
{"id": "C41", "title": "set_html replaces only the target's content", "statement": "set_html on an element replaces exactly its children; on a text node it replaces exactly that node.", "quantifier": "every tree, node and parser result", "why_tests_cant": "depends on the parser result", "anchors": ["src/lib.rs:set_html"]}
{"id": "C42", "title": "texts collects all text nodes", "statement": "texts(depth) returns exactly the text nodes at depth at most `depth` below each element (all of them for depth 0), in document order.", "quantifier": "every tree and depth", "why_tests_cant": "unbounded depth", "anchors": ["src/lib.rs:texts_by_rec", "src/mesdoc/interface/elements.rs:texts_by_rec"]}
{"id": "C43", "title": "eq, first, last, slice", "statement": "eq(i)/first/last/slice(range) return exactly the elements at these positions and an empty set when out of range, never panicking.", "quantifier": "every set and every index or range", "why_tests_cant": "all ranges including empty, reversed and open ones", "anchors": ["src/mesdoc/interface/elements.rs:eq", "src/mesdoc/interface/elements.rs:first", "src/mesdoc/interface/elements.rs:last", "src/mesdoc/interface/elements.rs:slice"]}
{"id": "C44", "title": "for_each, map, filter_by, is_by, not_by laws", "statement": "filter_by keeps exactly the elements for which the callback is true with their indexes; not_by is its complement; is_by/is_all_by are exists/for all; map visits every element once, in order, also with a callback that keeps a state; for_each stops after the first false, and when the callback puts other elements in the places of those it is given, the set has these at the visited places and is as before behind them.", "quantifier": "every set and every callback", "why_tests_cant": "arbitrary callbacks", "anchors": ["src/mesdoc/interface/elements.rs:for_each", "src/mesdoc/interface/elements.rs:map", "src/mesdoc/interface/elements.rs:filter_by", "src/mesdoc/interface/elements.rs:not_by", "src/mesdoc/interface/elements.rs:is_by", "src/mesdoc/interface/elements.rs:is_all_by"]}
{"id": "C45", "title": "until traversals", "statement": "next_until/prev_until/parents_until walk step by step in the given direction, stop just before the first element matching the until selector (including it if asked), and keep those matching the filter.", "quantifier": "every tree, start element, selectors", "why_tests_cant": "unbounded runs", "anchors": ["src/mesdoc/interface/elements.rs:select_with_comb_until"]}
{"id": "C46", "title": "Concurrent selector parsing cannot deadlock", "statement": "Threads parsing selectors concurrently never deadlock, whatever the schedule.", "quantifier": "every number of threads, every schedule", "why_tests_cant": "all interleavings", "anchors": ["src/mesdoc/selector/mod.rs:Selector::from_str", "src/mesdoc/selector/mod.rs:Selector::make_comb_all", "src/mesdoc/selector/rule.rs", "src/mesdoc/selector/pattern.rs"]}
{"id": "C47", "title": "Rule templates", "statement": "Every rule template string compiles to the pattern sequence it denotes: literal text outside braces, one named pattern per {name}. A template with a stray brace, an unclosed placeholder, an unregistered name, or a parameter or suffix that the placeholder does not take is refused.", "quantifier": "every template built from literal parts and placeholders", "why_tests_cant": "infinitely many templates", "anchors": ["src/mesdoc/selector/rule.rs:Rule::get_queues"]}
{"id": "C48", "title": "Form value", "statement": "val() of a text input is its value attribute, of a textarea its text, of a select the value of the selected options (or the first enabled option).", "quantifier": "every form element and option tree", "why_tests_cant": "unbounded option trees", "anchors": ["src/lib.rs:value"]}
{"id": "C49", "title": ":checked", "statement": "filter(\":checked\") keeps exactly the checkbox and radio inputs with a checked attribute, the options with a selected attribute, and the first option of a single-choice select in which no option is selected.", "quantifier": "every tree and every set", "why_tests_cant": "unbounded option trees", "anchors": ["src/mesdoc/rules/pseudo.rs:pseudo_checked"]}
{"id": "C50", "title": ":root and :empty", "statement": "filter(\":root\") keeps exactly the html elements that are children of the root of a document; filter(\":empty\") keeps exactly the elements whose child nodes are all comments.", "quantifier": "every tree and every set", "why_tests_cant": "unbounded trees", "anchors": ["src/mesdoc/rules/pseudo.rs:pseudo_root", "src/mesdoc/rules/pseudo.rs:pseudo_empty"]}
{"id": "C51", "title": "Alias pseudo-classes", "statement": "filter(\":header\") keeps exactly the elements named h1 to h6, filter(\":input\") those named input, select, textarea or button, filter(\":submit\") the inputs and buttons of type submit.", "quantifier": "every tree and every document-ordered set", "why_tests_cant": "unbounded trees and sets", "anchors": ["src/mesdoc/rules/pseudo.rs:pseudo_alias_header", "src/mesdoc/rules/pseudo.rs:pseudo_alias_input", "src/mesdoc/rules/pseudo.rs:pseudo_alias_submit", "src/mesdoc/selector/rule.rs:make_alias"]}
{"id": "C52", "title": "Texts::filter_by keeps exactly the accepted texts", "statement": "filter_by(f) on a set of texts returns exactly the texts for which f(index, text) is true, in their order, without panicking.", "quantifier": "every set of texts and every predicate", "why_tests_cant": "arbitrary predicates and unbounded sets", "anchors": ["src/mesdoc/interface/texts.rs:filter_by", "src/lib.rs:into_text"]}
{"id": "C53", "title": "Texts::remove removes exactly the given texts", "statement": "remove() on a set of texts takes exactly these texts out of their parents' child lists; every other node keeps its place and order, and the links stay right.", "quantifier": "every tree and every set of texts", "why_tests_cant": "unbounded trees and sets", "anchors": ["src/mesdoc/interface/texts.rs:remove", "src/lib.rs:remove"]}
{"id": "C54", "title": "Queries see the tree as it is after any history of mutations", "statement": "After any sequence of insertions, removals, replacements, set_text and set_html calls, find and filter return exactly the elements that match the selector in the tree as it then is, wherever these elements came from; and no such call changes the name or the attributes of a node.", "quantifier": "every heap of trees, every history of calls, every selector and starting set", "why_tests_cant": "unbounded histories and trees; the selector engine uses parent links, positions and root links which the mutations must all keep right", "anchors": ["src/lib.rs:insert_adjacent", "src/lib.rs:replace_with", "src/mesdoc/interface/elements.rs:filter_type_handle", "src/mesdoc/interface/node.rs:root_element"]}
{"id": "C55", "title": "Attribute and class methods of a set act on every element and nothing else", "statement": "set_attr, remove_attr, add_class, remove_class and toggle_class change, in every element of the set, exactly the attribute they name (respectively the class list, as C04-C06 say for one element) and nothing else in the document: no link, no text, no other attribute, no other element. attr reads what set_attr wrote on the first element; has_attr and has_class are true exactly when some element has the attribute (all the classes). None of them panics.", "quantifier": "every document, every set of elements, every name and value", "why_tests_cant": "unbounded sets, documents and attribute tables", "anchors": ["src/mesdoc/interface/elements.rs:attr", "src/mesdoc/interface/elements.rs:has_attr", "src/mesdoc/interface/elements.rs:set_attr", "src/mesdoc/interface/elements.rs:remove_attr", "src/mesdoc/interface/elements.rs:has_class", "src/mesdoc/interface/elements.rs:add_class", "src/mesdoc/interface/elements.rs:remove_class", "src/mesdoc/interface/elements.rs:toggle_class"]}
{"id": "C56", "title": "Selectors see changed attributes and classes", "statement": "After set_attr(n, v) the selector [n=v] selects exactly the elements of the set and what it selected before, in find from the root and in filter on any set; after remove_attr(n) the selector [n] selects what it selected before except the elements of the set; after add_class and remove_class the selector .c gains, respectively loses, exactly the elements of the set for every given class c; after toggle_class it changes sides for exactly the elements of the set.", "quantifier": "every document, set, name, value and class list", "why_tests_cant": "ties the attribute store to the selector engine over unbounded documents", "anchors": ["src/mesdoc/interface/elements.rs:set_attr", "src/mesdoc/interface/elements.rs:add_class", "src/mesdoc/rules", "src/lib.rs:set_attribute"]}
{"id": "C57", "title": "get_attributes lists the attributes in the order of their first writing", "statement": "get_attributes names no attribute twice and lists exactly the names and values that get_attribute answers, in lower case. A new attribute goes to the end, overwriting keeps the place, a removed attribute is no longer listed, after any history of set_attr and remove_attr.", "quantifier": "every attribute table and every history of writes and removals", "why_tests_cant": "unbounded histories; the table is a map from names to positions with holes", "anchors": ["src/lib.rs:get_attributes", "src/lib.rs:set_attribute", "src/lib.rs:remove_attribute"]}
{"id": "C58", "title": "Siblings of one element split the children of its parent", "statement": "For an element in its place in a tree, previous_element_siblings, the element and next_element_siblings are together the element children of its parent in order; siblings is the two outer parts; previous_element_sibling is the last of the first part and next_element_sibling the first of the last part; next and previous sibling undo each other. None of them panics.", "quantifier": "every well-formed tree and every element in it, whatever text and comment nodes lie between the elements", "why_tests_cant": "position arithmetic on unbounded child lists with mixed kinds of nodes", "anchors": ["src/lib.rs:siblings", "src/lib.rs:next_element_siblings", "src/lib.rs:previous_element_siblings", "src/lib.rs:next_element_sibling"]}
{"id": "C59", "title": "document_element, head, body and title", "statement": "document_element, head and body return the first element named html, head, body in document order and None only if there is none; title is the concatenated text of the title elements inside that head and None if there is none. None of them panics.", "quantifier": "every well-formed document", "why_tests_cant": "goes through the selector parser and engine over unbounded documents", "anchors": ["src/lib.rs:document_element", "src/lib.rs:head", "src/lib.rs:body", "src/lib.rs:title"]}
{"id": "C60", "title": "set_text and empty on a set", "statement": "After set_text(s) on a set of elements the text of every element of the set is s (for a content tag its content is s), after empty() it has no children (a content tag no content). Names, attributes, parents of these elements and all other nodes are unchanged and the links stay right, also when the set contains an element and its descendant, or an element twice. filter(\":empty\") then keeps exactly the emptied elements and those that were empty before.", "quantifier": "every heap of trees, every set of elements, every text that the entity encoder and decoder map back to itself", "why_tests_cant": "the calls of the set interfere through shared subtrees; unbounded trees and sets", "anchors": ["src/mesdoc/interface/elements.rs:set_text", "src/mesdoc/interface/elements.rs:empty", "src/lib.rs:set_text"]}
{"id": "C61", "title": "Reading attribute values and form values", "statement": "is_str(s) holds exactly when to_string() is s. to_list() gives the words of the value; for the class attribute these are the classes that has_class and .c see. Iterating over a form value gives its values; to_string joins several values with commas, from which they can be read back when none contains a comma.", "quantifier": "every attribute value and every form value", "why_tests_cant": "all strings, including Unicode white space", "anchors": ["src/mesdoc/interface/element.rs:to_list", "src/mesdoc/interface/element.rs:is_str", "src/mesdoc/interface/element.rs:into_iter"]}
{"id": "C62", "title": "Navigation with a selector of several compounds", "statement": "children, next, prev, parent, parents, next_all, prev_all and siblings with a selector of several compounds return exactly the elements reached from the set by the selector with the method's own relation in front of the first compound (children(s) finds the same as find(\"> s\")); a selector that begins with a combinator is preceded by *.", "quantifier": "every tree, every set in document order, every selector made of types, classes, attributes, :root, :empty, :contains, :checked and * joined by any combinators", "why_tests_cant": "unbounded trees, sets and selectors", "anchors": ["src/mesdoc/selector/mod.rs:head_combinator", "src/mesdoc/interface/elements.rs:select_with_comb", "src/mesdoc/interface/elements.rs:siblings"]}
{"id": "C63", "title": "Mutations stay in their document; clones are independent", "statement": "Mutating calls leave every node of a document alone unless they are given a node of that document: its nodes, its tree, what every selector means in it and what find returns stay the same. clone() of a set gives new nodes whose subtrees and texts are those of the members; later changes to the originals do not affect the copies, and changes to the copies do not affect the originals.", "quantifier": "every heap with any number of documents and fragments, every sequence of mutating calls on elements and sets (insert, replace, remove, set_text, set_html, attributes, classes, clone, load), also with handles that are out of place", "why_tests_cant": "unbounded sequences of calls on unbounded graphs; the claim is about everything that is not touched", "anchors": ["src/mesdoc/interface/elements.rs:Clone for Elements", "src/lib.rs:copy_node", "src/lib.rs:insert_adjacent", "src/lib.rs:replace_with", "src/lib.rs:set_html", "src/lib.rs:remove_child"]}
{"id": "C64", "title": "Laws between the query methods", "statement": "For selectors of types, classes, attributes, :root, :empty, :contains, :checked and *: find(\"a b\") is find(\"a\").find(\"b\"); find(s) from the document finds exactly the elements that filter(s) keeps; everything find(s) finds from any set matches s; find of a union of sets finds the union; has(s) keeps exactly the elements from which find(s) finds something, for a single compound. children().parent() gives back the members with an element child, next().prev() those with a next sibling, parents() is parent() and parent().parents(), next_all() is next() and next().next_all(), siblings() and the element are parent().children(), and x is in parents() of y exactly if y is in find(\"*\") of x. For selectors with positions, ids, :not and :has as well, from document-ordered sets: find(\"X a b\") is find(\"X a\").find(\"b\"), find(\"Xab\") is find(\"Xa\").filter(\"b\"), find(\"Xa:not(S)\") is find(\"Xa\").not(\"S\"), find(\"Xa:has(S)\") is find(\"Xa\").has(\"S\"), and filter(\"ab\") is filter(\"a\").filter(\"b\") in either order. For every set and every selector that the parser does not rearrange, find of a longer selector is two searches with any combinators between them, with the same result or the same panic; find(\"> a\") is children(\"a\") and find(\"+ a\") is next(\"a\"), with the same result or the same panic, for every compound and every set.", "quantifier": "all well-formed trees, all sets (document-ordered where find or next_all is called), all selectors of the class", "why_tests_cant": "equations between calls over all trees and selectors; tests check single documents", "anchors": ["src/mesdoc/interface/elements.rs:find", "src/mesdoc/interface/elements.rs:filter", "src/mesdoc/interface/elements.rs:has", "src/mesdoc/interface/elements.rs:select_with_comb", "src/mesdoc/interface/elements.rs:find_selector"]}
{"id": "C65", "title": "contains", "statement": "contains(x, comb) answers whether x stands in the relation of the combinator to a member of the set (child, descendant, next sibling, later sibling, member), for every combinator of the public type, without panicking.", "quantifier": "all well-formed trees, sets, elements, combinators", "why_tests_cant": "all trees and positions; the panicking combinators are not tested", "anchors": ["src/mesdoc/interface/elements.rs:contains", "src/mesdoc/interface/elements.rs:has_ele", "src/mesdoc/selector/mod.rs:Combinator::reverse"]}
{"id": "C66", "title": "Only selectors are accepted", "statement": "A non-empty text is accepted as a selector only if it can be read as a list of complex selectors: simple selectors side by side, a combinator between compounds, a comma between alternatives, at most a combinator in front and white space at the end; and the parsed selector is such a reading of the text. Without brackets, parentheses and escapes: only name characters, . # : * and separators occur, no two separators follow each other, the text does not begin with a comma and does not end with a separator; texts that break this are refused with an error.", "quantifier": "all texts", "why_tests_cant": "all texts over Unicode; tests try some malformed texts", "anchors": ["src/mesdoc/selector/mod.rs:Selector::from_str", "src/mesdoc/selector/mod.rs:parse_until", "src/mesdoc/selector/pattern.rs", "src/mesdoc/selector/rule.rs"]}
{"id": "C67", "title": "set_html on a set", "statement": "set_html(s) on a set of elements gives every member (nested and repeated ones included) its own new copy of the nodes the parser makes of s, without those the member may not contain; a content tag gets s as its content; nothing else of the members and no other node of the heap changes, and no two members share a child.", "quantifier": "all heaps with right links, sets of elements, texts; the parser is a parameter", "why_tests_cant": "all trees and all overlapping sets; sharing of parsed nodes between members only shows for sets of several elements", "anchors": ["src/mesdoc/interface/elements.rs:set_html", "src/lib.rs:set_html"]}
{"id": "C68", "title": "Refused mutations are reported", "statement": "An insertion that makes no sense (target not an element, a document given, into the own subtree), or emptying a text or comment with set_text, calls the error handler of the document of the target exactly once, with the name of the action, and changes nothing; on sets once for every refused pair; calls that are carried out report nothing. load_catch calls its handler exactly once and gives the empty set when the text cannot be parsed; otherwise it reports nothing and binds the handler to the document, which then hears of all errors of its nodes, whatever is done later.", "quantifier": "all heaps with right links, nodes, sets, handlers, sequences of mutations and loads; the parsers are parameters", "why_tests_cant": "all trees, and unbounded sequences of events between loading and the error", "anchors": ["src/lib.rs:Dom::halt", "src/lib.rs:validate_dom_change", "src/lib.rs:insert_adjacent", "src/lib.rs:set_text", "src/lib.rs:owner_document", "src/lib.rs:load_options_catch", "src/mesdoc/interface/document.rs:trigger_error"]}
{"id": "C69", "title": "Calls change only what they are about", "statement": "Whatever sequence of mutating methods is called, also with nodes that were removed, replaced or dropped before: an existing node keeps its kind, its tag name and its owner document; its attributes change only when it is given to a method that writes attributes; its content changes only when it is given to a method that writes text (or is a raw text element and set_html is called). Attribute methods, append_text, prepend_text, loading and cloning change no link. A single tree change touches only the given nodes, their parents, children and siblings.", "quantifier": "all heaps of any shape, all nodes, all finite sequences of calls; parser and copier are parameters that only add nodes", "why_tests_cant": "unbounded sequences of calls with stale handles; the frame of nodes that must not change is unbounded", "anchors": ["src/lib.rs:insert_adjacent", "src/lib.rs:replace_with", "src/lib.rs:remove_child", "src/lib.rs:set_html", "src/lib.rs:set_text", "src/lib.rs:set_attribute", "src/mesdoc/interface/elements.rs:add_class", "src/mesdoc/interface/elements.rs:insert"]}
{"id": "C70", "title": "Sets work as long as anything of the document is held", "statement": "A set of elements obtained from a document answers every query (find, filter, is, parent, siblings, texts, ...) in the same way whether or not the set returned by Vis::load is still held by the program; in particular no query panics because something else was dropped.", "quantifier": "For all documents, all sets held, all choices of what else is held or dropped, all queries, after all histories of usable mutations.", "why_tests_cant": "Which weak links are dangling depends on the whole combination of held handles, moved nodes and dropped documents; tests keep the document in a local variable, so dropped documents and dropped fragments are hardly ever met, and an answer that is silently wrong (no parent, filter finds nothing) does not show up as a crash.", "anchors": ["src/lib.rs:202-225", "src/lib.rs:1104-1110", "src/mesdoc/interface/elements.rs:30-41", "src/mesdoc/interface/elements.rs:97-103", "src/mesdoc/interface/elements.rs:144-160", "src/mesdoc/interface/elements.rs:451-476", "src/mesdoc/interface/elements.rs:948-956"]}
{"id": "C71", "title": "Sets that mix documents, fragments and clones", "statement": "A set may hold elements of several documents, of fragments, and clones that have no parent. Every query method gives for such a set what it gives for its parts: for two sets put together the elements given for the first followed by those given for the second (for is: either answer, for is_all: both), and it does not panic.", "quantifier": "all heaps, all sets in any order, all selectors", "why_tests_cant": "The tests of the library never put elements of two documents into one set. Whether it works depends on the index paths of the elements and of their parents, which coincide by accident.", "anchors": ["src/mesdoc/interface/elements.rs:31-41", "src/mesdoc/interface/elements.rs:367-476", "src/mesdoc/interface/elements.rs:919-1003", "src/mesdoc/interface/elements.rs:2634-2790", "src/mesdoc/interface/elements.rs:3571-3576"]}
{"id": "C72", "title": "html, htmls, outer_html and outer_htmls show the tree", "statement": "html and outer_html always return, and show the subtree of the first element: outer_html is the start tag, html, and the end tag; htmls and outer_htmls are the strings of all elements in order. Two subtrees that look the same give the same string; so a clone is written as its original, and calls elsewhere do not show. Attribute changes on an element do not change its html. append, prepend, before, after, replace_with and remove change the html of every element above at exactly one place, where the string of what is inserted or removed appears or disappears, and nothing else changes; an element that moves inside the element looked at disappears at its old place and appears at its new one, and what is left is the same before and after. After set_html(s) the html of the element is what the parsed nodes are written as; after set_text(s) it is the encoded text.", "quantifier": "all heaps with well-formed trees, all elements, all ancestors, all inserted elements and fragments, all strings, any way to write a single node", "why_tests_cant": "The tests compare a few literal strings. That a mutation changes the string of every ancestor at one place only, for every tree and every history, cannot be sampled.", "anchors": ["src/lib.rs:753-781", "src/mesdoc/interface/element.rs:307-309", "src/mesdoc/interface/elements.rs:2978-2983", "src/mesdoc/interface/elements.rs:3009-3011", "src/mesdoc/interface/elements.rs:3080-3085", "src/mesdoc/interface/elements.rs:3111-3113"]}
{"id": "C73", "title": "Position formulas stay within machine integers", "statement": "Evaluating an+b of :nth-child and its relatives for any numbers the selector can carry (any isize) and any number of children does not overflow, and gives the same positions as exact integer arithmetic.", "quantifier": "all steps and offsets that fit into isize, all numbers of children", "why_tests_cant": "2^128 pairs of numbers; the failures sit at the edge of the range", "anchors": ["src/mesdoc/selector/pattern.rs:get_allowed_indexs", "src/mesdoc/utils.rs:divide_isize"]}
{"id": "C74", "title": "The document of a set", "statement": "document() of a non-empty set whose elements are in one document gives that document as long as the program holds it, and nothing afterwards; for a set over several documents it is the document of the first element whose document is held. Mutations, loading and dropping other documents do not change the answer.", "quantifier": "all heaps, all sets, all sequences of mutations and loads, all sets of held documents", "why_tests_cant": "The tests ask one freshly loaded set. That the answer survives every history, and depends on nothing but the documents held, cannot be sampled.", "anchors": ["src/mesdoc/interface/elements.rs:351-358", "src/lib.rs:212-225"]}
{"id": "C75", "title": "Elements can be moved away and back, and removed elements put back", "statement": "Moving an element anywhere it is accepted and then back to its former place restores every list of children; inserting an element where it stands already, or the same insertion a second time, changes nothing; a new element inserted and removed again leaves the document as it was. An element that was removed, or replaced, or whose parent was emptied, can be inserted again and nothing but that element is affected.", "quantifier": "all heaps with intact trees, all elements, targets and positions", "why_tests_cant": "The tests move an element once. That two mutations cancel out for every pair of places, and that the element carries no stale link into the second one, is a statement about all pairs of mutations.", "anchors": ["src/lib.rs:insert_adjacent", "src/lib.rs:786-802 (remove_child)", "src/lib.rs:replace_with", "src/mesdoc/interface/elements.rs:remove", "src/mesdoc/interface/elements.rs:empty", "src/mesdoc/interface/elements.rs:append_to"]}
{"id": "C76", "title": "Selectors that mean the same give the same results", "statement": "The equivalences of CSS and jQuery hold for the library: the order and repetition of simple selectors, `*`, the letter case of type names, :first-child and :nth-child(1), an+b with a = 0 and a plain number, :only-child and :first-child:last-child, :nth-child(n) and no condition, :nth-child(even) and :not(:nth-child(odd)), .c and [class~=\"c\"], [a!=\"v\"] and :not([a=\"v\"]), tests implied by others, :not(:not(x)) and x, :not(a, b) and :not(a):not(b), and all replacements of equals by equals inside compounds, :not and :has. Whenever two selectors are equal by these laws, find, filter, not, is, is_all, has and closest give the same results for every text of either.", "quantifier": "all trees, all pairs of selectors equal by the laws, all their texts, all sets", "why_tests_cant": "A test compares two spellings on one page. Every spelling takes another path through the code (one handle, list handle, marked children, cache), so that they agree is a statement about all pairs of selectors and all documents.", "anchors": ["src/mesdoc/rules/pseudo.rs", "src/mesdoc/rules/class.rs", "src/mesdoc/rules/attr.rs", "src/mesdoc/interface/elements.rs:find", "src/mesdoc/interface/elements.rs:filter"]}
{"id": "C77", "title": "The attributes that are read are those that are written", "statement": "After any history of set_attr and remove_attr (and the class methods, which set the attribute class) get_attributes lists exactly the attributes that the start tag is written with, in the same order and with the same values: nothing can be read that is not in the HTML, and nothing is in the HTML that cannot be read.", "quantifier": "every attribute table in step with its list, every history of writes and removals, every spelling of the names", "why_tests_cant": "The table of names and the list of attributes are two structures that every write must keep in step; the tests look at one of them after one or two calls.", "anchors": ["src/lib.rs:666-731", "src/lib.rs:734-750", "src/lib.rs:635-663"]}
{"id": "C78", "title": "Searches before and after a change agree on what the change left alone", "statement": "A search whose simple selectors look only at an element itself (its name, id, classes, attributes) and whose combinators look only upwards answers the same for every element that a history of calls did not touch: it is found afterwards exactly if it was found before. After remove() a search answers with what it found before, less the removed elements and everything inside them, in the same order. Removing the results of a search and searching again finds nothing.", "quantifier": "every document, every history of manipulation calls, every selector built of own tests, every set searched, every untouched element", "why_tests_cant": "A test searches a document once after one change. That the parts a change leaves alone are still found, and found in the same order, is a relation between two searches over all histories and all selectors; parent and index links repaired wrongly show only on elements the test does not look at.", "anchors": ["src/mesdoc/interface/elements.rs:find", "src/mesdoc/interface/elements.rs:remove", "src/lib.rs:remove_child", "src/lib.rs:set_text", "src/lib.rs:set_html"]}
{"id": "C79", "title": "What the empty selector means", "statement": "The empty text as a selector is never an error. For the methods that go somewhere (children, next, prev, next_all, prev_all, parent, parents, siblings and the until methods) it is no condition: they return all the elements they lead to, and the until methods stop nowhere. For the methods that select or test (find, filter, is, is_all, has, closest) it is satisfied by nothing, so not returns the set as it is and every element satisfies :not(). A text of white space means the same to every method.", "quantifier": "every tree, every set of nodes, every text of white space", "why_tests_cant": "Every method treats the empty text on a path of its own, before the parser or after it; which of them agree is a statement over all methods and all sets, and the tests call a few of them on one page.", "anchors": ["src/mesdoc/interface/elements.rs:502-583", "src/mesdoc/interface/elements.rs:1515-1566", "src/mesdoc/interface/elements.rs:1719-1774", "src/mesdoc/selector/mod.rs:91-204"]}
{"id": "C80", "title": "What the calls leave alone keeps its place and its order", "statement": "After any sequence of usable calls (remove, insert, replace, set_text, set_html, load and so on), the children of a node that the calls neither moved nor took away are still its children, in the same relative order, and no node of the tree has come among them without being moved there. Two nodes of the document that, with everything above them, were not moved stand in the same document order as before.", "quantifier": "all well formed heaps, all histories of usable calls, all nodes, all pairs of nodes", "why_tests_cant": "The relative order of all pairs of untouched nodes under all sequences of calls is not enumerable; tests look at one list after one call.", "anchors": ["src/lib.rs:251-298", "src/lib.rs:299-380", "src/lib.rs:786-805", "src/lib.rs:806-926", "src/lib.rs:927-1010"]}
{"id": "C81", "title": "Calls about different things can be made in either order", "statement": "Two calls about different things give the same document in either order: two insertions of different nodes at different places, removals of different nodes, an insertion and the removal of another node, an attribute or class call and an insertion or removal of any node, attribute and class calls about different elements, and writes of attributes with different names on one element. Neither order panics if the other does not; children, links, attributes and HTML are the same.", "quantifier": "all well formed heaps, all targets, nodes and places that the insertion accepts, all sets, names and values", "why_tests_cant": "Needs all pairs of calls on all trees; insertions remove the node from its old place and renumber both lists, so the two orders run through different intermediate indexes.", "anchors": ["src/lib.rs:251-298", "src/lib.rs:666-750", "src/lib.rs:786-805", "src/lib.rs:806-926"]}
{"id": "C82", "title": "The same tree gives the same answers", "statement": "find, filter, not, is, is_all, has and closest depend on the tree alone: asked about corresponding sets of two documents that have the same tree (the same HTML loaded twice, or one document in two states), they give corresponding answers, in the same order. So a move there and back, and independent calls made in the other order, leave all answers unchanged.", "quantifier": "all pairs of well formed documents with the same tree, all common selectors, all sets of nodes", "why_tests_cant": "Compares all queries on all pairs of documents that differ only in identities, links and history; tests compare with a fixed expected answer.", "anchors": ["src/mesdoc/interface/elements.rs:1097-1135", "src/mesdoc/interface/elements.rs:1136-1180", "src/mesdoc/interface/elements.rs:1719-1760", "src/mesdoc/interface/elements.rs:2347-2400"]}
{"id": "C83", "title": "Queries depend on nothing but the trees they look at", "statement": "Take some trees (documents, fragments) and a copy of them in which the nodes have other identities: same children in the same order, same kinds, names, attributes, corresponding links to the root and corresponding answers of get_element_by_id. Then each of find, filter, not, has, is, is_all, children, prev, next, prev_all, next_all, parent, parents, siblings, closest, prev_until, next_until and parents_until, asked about any set of nodes with any text, gives in the copy exactly the copies of the nodes it gives in the original, in the same order, with the same number of error reports, and panics there exactly if it panics in the original, with the same panic. The same holds for add, has_in, not_in, filter_in, is_in, is_all_in and for document_element, head, body and title. In particular a node moved away and back, removals in another order, and independent insertions in another order leave every later answer as it was.", "quantifier": "For all pairs of states related by such a copy, all finite lists of nodes of the trees (any order, repetitions allowed), all texts (selectors or not), all ways of handling errors.", "why_tests_cant": "It relates two runs on two different heaps for every text and every list; tests compare a few outputs and cannot see dependence on addresses, on unrelated trees or on stale fields.", "anchors": ["src/mesdoc/interface/elements.rs", "src/mesdoc/selector/mod.rs", "src/mesdoc/selector/rule.rs", "src/mesdoc/selector/pattern.rs", "src/mesdoc/interface/document.rs"]}
{"id": "C84", "title": "Queries answer with elements of the trees", "statement": "Whatever the text, find, children, prev, next, prev_all, next_all, parent, parents, siblings and the until methods return only elements of the documents and fragments they look at: never a text node, a comment, the document itself or a node that has been taken out, also when they are asked on such nodes of these trees. filter and closest return nodes of the set and such elements; not and has return a sublist of the set. So no sequence of queries, unions and restrictions that begins with find on a document or with sets of elements ever yields anything but elements of these trees.", "quantifier": "For all well formed states, all finite lists of nodes (any order, repetitions allowed), all texts, selectors or not, all programs made of any number of such calls; what the index of ids tells is elements of the trees.", "why_tests_cant": "Safety of every program: the casts of the code (typed elements, attributes without a check) rely on it, and a counterexample would need one odd text among infinitely many.", "anchors": ["src/mesdoc/interface/elements.rs", "src/mesdoc/rules/pseudo.rs", "src/mesdoc/selector/rule.rs", "src/mesdoc/selector/mod.rs"]}
{"id": "C85", "title": "No call runs for ever", "statement": "On well formed trees every method that takes a selector (find, filter, not, has, is, is_all, closest, the steps to children, parents, siblings and neighbours, the until methods), has_in, add, and reading texts, values and html come to an end, for every text: with an answer, a report or a panic. Reading a selector ends for every text, without any condition. Every insertion, removal, replacement and change of text or html ends on states with right links, also for nodes that are not in place.", "quantifier": "For all well formed states, all finite lists of nodes of the trees (any order, repetitions allowed), all texts, selectors or not, nested to any depth; no bound on the size or depth of the trees.", "why_tests_cant": "Termination of every call on infinitely many trees and texts: recursion into nested selectors, walks up, down and sideways, retries of the parser.", "anchors": ["src/mesdoc/interface/elements.rs", "src/mesdoc/selector/mod.rs", "src/mesdoc/rules/pseudo.rs", "src/mesdoc/selector/pattern.rs", "src/lib.rs"]}
{"id": "C86", "title": "Html that is written back or loaded again is the same document", "statement": "Writing a document with html and loading the result gives a document of which every node has its counterpart at the same place, with the same kind, name, attributes and content; it is written as the same html, and every question with any text gets the corresponding answer. Writing the html of an element back into it with set_html leaves every node that is not below it as it was, puts new nodes at the same places, and changes neither the html of anything nor the answers to selectors. set_html with the html of another element gives the element children that look like those of the other one, and its html. An element replaced with what its own outer html is loaded as is new nodes at the same places, and nothing else changes. Required: rphtml parses the text to nodes that look like those it was written for.", "quantifier": "For all states with right links, all documents, all elements of them, all shapes of subtrees, all selector texts, all parsers and writers that fit together on the text in question.", "why_tests_cant": "A round trip over all trees and all questions afterwards; tests compare a few strings.", "anchors": ["src/lib.rs", "src/mesdoc/interface/elements.rs", "src/mesdoc/interface/element.rs"]}
{"id": "C87", "title": "The text of elements is what their texts say", "statement": "text() of an element is the text of its child nodes one after the other without any tags; text() of a set is the join of the text of texts(0) of the set. Changing every text through for_each (prepend_text, append_text, set_text) changes text() exactly at these places, removing all texts leaves no text; inserting an element, removing one or set_text changes the text of every element around at exactly one place; clones have the text of their originals; :contains finds an element exactly when the searched text is in its text.", "quantifier": "every tree, every set of elements, every edit of the contents", "why_tests_cant": "all trees, all sets and all closures", "anchors": ["src/lib.rs:text_contents", "src/mesdoc/interface/elements.rs:text", "src/mesdoc/interface/elements.rs:texts", "src/mesdoc/interface/texts.rs:for_each", "src/lib.rs:append_text", "src/lib.rs:prepend_text", "src/mesdoc/rules/pseudo.rs:pseudo_contains"]}
{"id": "C88", "title": "Nodes are of one kind, and conversions between handles do not fail", "statement": "typed() gives exactly one kind of handle for every node, of the same node, in agreement with node_type(); no call changes what a node is. The conversions with unwrap or expect inside cloned, copied, children, next_element_sibling(s), previous_element_sibling(s), siblings, child_nodes and texts never fail: the loops over the child nodes give exactly the elements among the children, behind, before, or beside the own position, and sets obtained from queries contain only elements that can be cloned. A content tag in a set of texts can be used wherever texts can.", "quantifier": "every heap, node and position; every program of queries on well formed trees; every sequence of calls", "why_tests_cant": "arbitrary child lists, kinds and stale positions; the statement is about all nodes after any calls", "anchors": ["src/lib.rs:typed", "src/lib.rs:node_type", "src/lib.rs:into_text", "src/mesdoc/interface/node.rs:IEnumTyped", "src/mesdoc/interface/element.rs:cloned", "src/mesdoc/interface/element.rs:children", "src/mesdoc/interface/element.rs:siblings", "src/mesdoc/interface/texts.rs:filter_by"]}
{"id": "C89", "title": "text_chars gives the characters as they are stored", "statement": "text_chars() of an element is the concatenation of the stored characters of the texts that texts(0) lists, in document order, and text() is the same concatenation with the entities of every text (but not of content tags) decoded; so the two agree wherever decoding changes nothing. append_text(s) and prepend_text(s) put exactly the characters s behind or before those stored in one text and change text_chars of the element at that place only. After set_text(s) text_chars of the element is the encoded s, and in text_chars of every element around it this stands where the old characters were. Of a node that is no element text_chars and text differ only by decoding.", "quantifier": "every element of a well formed heap, every text in it, every string, every renderer that keeps to the contract of rphtml", "why_tests_cant": "arbitrary trees with texts, comments and content tags; the statement is about every place in every tree", "anchors": ["src/lib.rs:text_chars", "src/lib.rs:text_contents", "src/lib.rs:append_text", "src/lib.rs:prepend_text", "src/lib.rs:set_text", "src/mesdoc/interface/node.rs:text_chars"]}
{"id": "C90", "title": "set_html on every text of a set replaces each text in its place", "statement": "for_each over a set of texts with a closure that calls set_html on each text, with markup made of its position and of its text(), replaces every one of the texts, where it stands, by new nodes that look like those parsed from its own markup (without those that may not stand in the element around). The siblings around stay in their order, nothing else of the old nodes changes, all parent and index links are right, and no text later in the loop is missed because an earlier one was replaced. Afterwards the text() of every element is what it was with the text of the new nodes in the place of each replaced text.", "quantifier": "every well formed heap, every list of texts in elements, every closure that computes markup of position and text, every parser that keeps to the contract of rphtml", "why_tests_cant": "the texts may be siblings of each other or stand anywhere in the tree, and each replacement shifts the positions that the later ones rely on; no finite set of trees covers this", "anchors": ["src/lib.rs:set_html", "src/mesdoc/interface/texts.rs:for_each", "src/lib.rs:text_contents"]}
{"id": "C91", "title": "Putting an element around another one", "statement": "A new element w that is inserted before an element x of a document and to which x is appended then (insert_before, append) stands afterwards where x stood, with x as its last child, and no other list of children changes; the html of every node above changes only at the place of x, where the start tag of w, what was in w, the HTML of x and the end tag of w are written. When w is replaced with x (replace_with), every list of children and all HTML is as it was before. Several children of one node that are appended one by one to a w inserted before one of them stand in w in that order, w stands among the children that are left where that one stood, and the html of neighbouring ones appears between the tags of w. Bringing w in with replace_with and then appending x to it has the same effect as the first way.", "quantifier": "for all trees with right links, all elements x with a parent, all new elements w that may hold x, all nodes above x", "why_tests_cant": "The effect is on every list of children and on the HTML of every node above, for any number of siblings before and behind; the failing order loses elements without any error, and tests look at the wrapped element only.", "anchors": ["src/lib.rs:786-802", "src/lib.rs:820-960", "src/mesdoc/interface/elements.rs"]}
{"id": "C92", "title": "The neighbours of a removed element", "statement": "An element that has been taken out of the document with remove has no parent, no previous and no next siblings any more, and in the element everything is as before: children, parents, siblings of everything below it.", "quantifier": "for all trees with right links, all elements with a parent, all positions among the siblings, all nodes below the element", "why_tests_cant": "The answers depend on the position among the siblings and on what stands behind; tests look at the document after a removal, not at the handle of the removed element.", "anchors": ["src/lib.rs:786-802", "src/mesdoc/interface/element.rs:113-250", "src/mesdoc/interface/elements.rs"]}
{"id": "C93", "title": "A copy put beside, into, or in the place of an element", "statement": "The copy of an element (copied) that is inserted beside an element of the document, or into one that may hold it, adds the original's outer HTML at that place to the html of every node above, and changes nothing else. An element replaced with its own copy leaves the html of every node and the answers of every search as they were. After a copy has been put among the siblings of its original, a search finds the old nodes it found before, and in the copy the nodes standing where the ones found in the original stand.", "quantifier": "for all trees with right links, all elements, all positions, all nodes above, all selectors (found: without siblings, positions and ids)", "why_tests_cant": "The effect is on the HTML of every node above and on every search; tests look at the element that was copied only, and the id table is not asked for copies.", "anchors": ["src/lib.rs:165-167", "src/mesdoc/interface/element.rs:107-111", "src/lib.rs:786-960", "src/mesdoc/interface/elements.rs:3663-3677"]}
{"id": "C94", "title": "Every element has a selector of positions that finds it alone", "statement": "For every element x below an element q or the document q, with l the numbers of the child elements on the way down from q to x, find called on q with the text '>:nth-child(l1)>:nth-child(l2)…' answers with exactly [x], without a report. A way that does not exist finds nothing, and two different elements never share a way.", "quantifier": "for all well formed trees with less than 2^63 children per node, all start nodes, all elements below them, ways of any length", "why_tests_cant": "The statement needs trees of any depth and width and selectors of any length; it joins parser, number reading, child counting and the chain of child combinators, which tests try one by one.", "anchors": ["src/mesdoc/selector/mod.rs:91-204", "src/mesdoc/selector/rule.rs", "src/mesdoc/interface/elements.rs", "src/mesdoc/selector/pattern.rs"]}
{"id": "C95", "title": "Order of the answers of navigation", "statement": "children, next and prev answer member by member, in the order of the set; parent and next_all answer for the first member with each parent, prev_all for the last one, in the order of these members; the siblings given for one member are in document order.", "quantifier": "every tree and every set of its nodes, in any order and with repetitions", "why_tests_cant": "unbounded trees and sets; tests mostly look at lengths or at sets of one element", "anchors": ["src/mesdoc/interface/elements.rs:children", "src/mesdoc/interface/elements.rs:next", "src/mesdoc/interface/elements.rs:prev", "src/mesdoc/interface/elements.rs:parent", "src/mesdoc/interface/elements.rs:next_all", "src/mesdoc/interface/elements.rs:prev_all", "src/mesdoc/interface/elements.rs:unique_sibling"]}
{"id": "C96", "title": "Some order of the alternatives is right", "statement": "For any two sets in document order one of a.add(b) and b.add(a) is their union in document order. A list of selectors each of which answers in document order can be arranged so that find answers with the union of their answers, in document order, each element once; the arrangement in which every selector reaches at least as far down the document as those behind it does so.", "quantifier": "every tree, every two sets, every list of selectors", "why_tests_cant": "unbounded trees and lists; the statement is about all arrangements of the alternatives", "anchors": ["src/mesdoc/interface/elements.rs:add", "src/mesdoc/interface/elements.rs:find_selector"]}
{"id": "C97", "title": "A selector that asks for more finds no more", "statement": "When one selector asks for at least as much as another (further conditions, a compound in front of it, a child instead of a descendant, the next sibling instead of a later one, stricter attribute tests, sparser positions, less inside :not, more inside :has), find with it from a part of a set gives a part of what find with the other gives from the whole set, in the same order; filter and has keep a part of what they keep with the other, not drops no more than with the other, and is with it implies is with the other. A list of both finds what the wider one finds, whichever comes first.", "quantifier": "For all trees, all sets, all texts of all pairs of selectors in the relation (common selectors as in C18 and C22).", "why_tests_cant": "A relation between the answers to two selectors, generated by rules that can be combined without bound, over all trees and sets.", "anchors": ["src/mesdoc/interface/elements.rs", "src/mesdoc/selector/mod.rs", "src/mesdoc/rules/attr.rs", "src/mesdoc/rules/pseudo.rs"]}
{"id": "C98", "title": "The children of an element can be put in any order", "statement": "A program sorts the element children of an element and appends them to it one by one in the new order. Then children() gives them in exactly that order, the texts and comments of the element come first and keep their order, no child list of any other node changes, and no name, attribute or text changes; when all children are elements, html() is the concatenation of the children's outer html in the new order. The same order results from one prepend of the sorted set; one append of the sorted set gives the reverse order. Arranging a second time has the effect of the second arrangement alone.", "quantifier": "for every well-linked heap, every element in place in it, every permutation of its element children allowed in it, every writer of html", "why_tests_cant": "Appending a node that is already a child removes it and renumbers its siblings at every step; a test sorts a few lists, while a wrong position can depend on the permutation and on the texts in between.", "anchors": ["src/mesdoc/interface/elements.rs", "src/lib.rs"]}
{"id": "C99", "title": "Two elements change places", "statement": "Of two elements a and b of a document, in the same or in different parents, neither in the other: a new element w is put before a (before), a is put before b, and w is replaced with b (replace_with). Afterwards a stands exactly where b stood and b where a stood, in every list of children; positions, parents and the nodes above are exchanged, no other list of children, name, attribute or text changes; when both have one parent their outer html is exchanged in the html of everything above and what is written between them stays. Doing it again puts everything back, with another new element or with the same one.", "quantifier": "for all trees with right links, all pairs of elements neither of which contains the other, neighbours or not, all new elements w", "why_tests_cant": "Each of the three calls takes a node out of one list and renumbers it; whether the mark, the first or the second element comes first, and whether they are neighbours or in one list at all, all give different positions.", "anchors": ["src/mesdoc/interface/elements.rs", "src/lib.rs"]}
{"id": "C100", "title": "An element gives way to its children", "statement": "Inserting the children of an element after it and then removing the element leaves, in the list of its parent, exactly those children in their order at its place; the element keeps only its children that are not elements, and no other list changes. When all its children are elements, the html of every node above loses exactly the two tags of the element. Neighbouring elements that were put into a new empty element come back to where they were when that element gives way, and all html is then as before.", "quantifier": "all well-formed trees, all elements with a parent, all lists of children, all nodes above", "why_tests_cant": "The two calls move nodes between two lists while reading positions in one of them; a test fixes a few trees and positions, while the claim covers every length of every list and every depth of the tree above.", "anchors": ["src/mesdoc/interface/elements.rs", "src/lib.rs"]}
{"id": "C101", "title": "An element is divided in two, and two elements are joined", "statement": "A new element w is put behind an element x (after) and the children of x from some place on are prepended to w (prepend): x keeps exactly the children in front, w has exactly the others in their order, w stands directly behind x and no other list of children changes; for an empty w the html of everything above changes only in that what is written in x is cut in two and the tags of w stand around the second part. Appending these children to x one after the other and removing w puts all lists and all html back. Prepending the children of x to another element y that is not inside x and removing x puts them in their order in front of the children of y; with a new empty y behind x this gives the element another name: in the html above, the tags of y stand where those of x stood.", "quantifier": "for all trees with right links, all elements with a parent, every place to divide at, all new elements that allow the children", "why_tests_cant": "Every moved node changes the positions in two lists while the rest of the set still has to be moved; the claim is about every place in lists of every length and every depth above.", "anchors": ["src/mesdoc/interface/elements.rs", "src/lib.rs"]}
{"id": "C102", "title": "Changing the elements around a text leaves the text as it was", "statement": "Putting a new empty element around neighbouring elements, letting an element give way to its children, dividing an element in two and giving an element another name (by the calls of C91, C100 and C101) leaves text() of every element and of every set of elements as it was, apart from the elements that were put in or taken out. The new element around neighbours says what these said one after the other; the two parts of a divided element say together what it said; the element with the new name says what the old one said. When an element gives way or gets another name its child nodes have to be elements, because children() gives elements only and texts are lost with the removed element.", "quantifier": "for all trees with right links, all places, all sets of elements", "why_tests_cant": "The text of every element above and beside, in trees of every shape, after several moves between lists.", "anchors": ["src/lib.rs:text_contents", "src/mesdoc/interface/elements.rs:text", "src/lib.rs:insert_adjacent", "src/mesdoc/interface/elements.rs:children"]}
{"id": "C103", "title": "Searches by own tests after the elements around have changed", "statement": "Take `set.find(s)` where `set` is any list of nodes in document order and `s` is made of names, classes and attributes joined by descendant combinators. When an element `x` outside the set gives way to its children (insert `x.children()` after `x`, remove `x`), the second answer is the first one without `x`, in the same order. When neighbouring elements are put into a new element `w`, or an element is divided and its second half is the new element `w`, the second answer without `w` is the first one. When an element `x` gets another name, by a new element `w`, the second answer without `w` is the first one without `x`. The condition: the compounds before the last one in `s` fit neither the element that goes nor the one that comes.", "quantifier": "for every well formed document, every element in it, every loose empty element, every list of nodes in document order, every such selector and every id lookup of the parser", "why_tests_cant": "The claim is about all trees, all places in them and all selectors of the class; tests can try a few documents.", "anchors": ["src/mesdoc/interface/elements.rs:find", "src/mesdoc/interface/elements.rs:children", "src/lib.rs:insert_adjacent", "src/mesdoc/interface/elements.rs:remove"]}
{"id": "C104", "title": "Searches when the children of an element have been put in another order", "statement": "Take `set.find(s)` where `set` is a list of nodes in document order, no two of them below different children of an element `t`, and `s` is made of names, classes and attributes joined by descendant combinators. When the element children of `t` are appended to it one by one in another order (C98), or two children of `t` change places (C99), the search finds the same elements, each once, in the order of the document as it is now. Among the found elements those below one child of `t`, and those outside of `t`, come in the same order as before. When the children of `t` have no element children, `t.find(s)` with one compound lists what it found before in the new order of the children. With positions (`:first-child`) or neighbours (`+`) other elements are found.", "quantifier": "for every well formed document, every element in it, every new order of its children, any two of its children, every such set and selector", "why_tests_cant": "The claim is about all trees, all permutations and all selectors of the class.", "anchors": ["src/mesdoc/interface/elements.rs:find", "src/mesdoc/interface/elements.rs:append", "src/lib.rs:insert_adjacent"]}
{"id": "C105", "title": "A search with one compound depends only on the elements of the document", "statement": "Take `doc.find(s)` where `s` is one compound of names, classes and attributes. After any history of calls that insert, move, remove and replace nodes and set texts and html (each on nodes that are in place), the search answers, with every element once, in the order of the document as it is now. An element that was in the document before and is in it now, wherever it stands, is found if and only if it was found before. If no element has left the document nothing that was found is missing; if none has come, nothing new is found; if the same elements are in it, the same ones are found. The same elements are found when two elements of the document, neither above the other, change places (C99). With two compounds this is not so: an element that has been moved out of a `div` is no longer found by `div p`.", "quantifier": "for every heap with right links, every document in it, every history of usable calls, every such compound", "why_tests_cant": "Histories of any length on trees of any shape, with all such compounds.", "anchors": ["src/mesdoc/interface/elements.rs:find", "src/lib.rs:insert_adjacent", "src/lib.rs:remove_child", "src/lib.rs:replace_with"]}
{"id": "C106", "title": "Marked elements are found again, wherever they have gone", "statement": "A program sets an attribute with a new value (not empty, and with at most one kind of quote in it) on a set of elements (`set_attr(n, v)`), or a new class (`add_class`), and then moves, inserts, removes and replaces nodes and sets texts and html as it likes. `doc.find(\"[n='v']\")` (respectively `.c`) then finds, of the elements that there were, exactly those of the set that are in the document now, each once, in the order of the document as it is now. If no html has been parsed meanwhile it finds nothing else. `remove_attr(n)` on what is found gives every element of the document the attributes it had before, and `[n]` then finds nothing. (The name has to be written without capital letters for this.)", "quantifier": "for every heap with right links, every document in it, every set of elements, every new mark, every history of usable calls", "why_tests_cant": "All sets of marked elements, all marks and histories of any length.", "anchors": ["src/mesdoc/interface/elements.rs:set_attr", "src/mesdoc/interface/elements.rs:remove_attr", "src/mesdoc/interface/elements.rs:add_class", "src/mesdoc/interface/elements.rs:find", "src/lib.rs:insert_adjacent"]}
{"id": "C107", "title": "Testing elements with one compound gives the same answer wherever they are", "statement": "Take a set of elements of a document, in any order and with repetitions, and one compound of names, classes and attributes. After any history of calls that insert, move, remove and replace nodes and set texts and html, as long as the elements are in that document or all in another one, `filter`, `not`, `is` and `is_all` on the set answer as they did before: the same elements in the same order, the same truth values. Calls that only move or remove nodes do not change the outcome for any list of nodes, in a document or not. With two compounds this is not so.", "quantifier": "for every heap with right links, every set of elements, every history of usable calls, every such compound", "why_tests_cant": "Sets and histories of any length on trees of any shape.", "anchors": ["src/mesdoc/interface/elements.rs:filter", "src/mesdoc/interface/elements.rs:not", "src/mesdoc/interface/elements.rs:is", "src/mesdoc/interface/elements.rs:is_all"]}
{"id": "C108", "title": "An inserted element is reached by the steps from where it was put", "statement": "After `before` an element that was inserted has the target as `next` and is the `prev` of the target; after `after` it is the `next` of the target and has the target as `prev`, whatever texts and comments lie around. After `append` it is the last of `children` of the target, has no `next`, its `prev_all` are the other children in their order, and its `parent` is the target; after `prepend` it is the first, has no `prev`, and its `next_all` are the others.", "quantifier": "for every heap with right links, every target element and every element in place, also one of the same parent, for which the insertion is accepted", "why_tests_cant": "Positions are renumbered on each insertion; trees of any shape, with texts and comments anywhere between the elements.", "anchors": ["src/mesdoc/interface/elements.rs:insert", "src/mesdoc/interface/elements.rs:next", "src/mesdoc/interface/elements.rs:prev", "src/mesdoc/interface/elements.rs:children", "src/lib.rs:insert_adjacent"]}
{"id": "C109", "title": "The steps pass over what has been removed", "statement": "After `remove` on a set of different nodes in place, `children` of each node, and `next_all` and `prev_all` of each element that was not removed, give what they gave before without the removed ones, in the same order; `next` is the nearest following element that was not removed and `prev` the nearest preceding one. With a node twice in the set this is not so.", "quantifier": "for every heap with right links, every set of different nodes in place, every element child of a node of a document", "why_tests_cant": "Any number of removed nodes, next to each other or not, in any order, with texts and comments between.", "anchors": ["src/mesdoc/interface/elements.rs:remove", "src/mesdoc/interface/elements.rs:next", "src/mesdoc/interface/elements.rs:prev", "src/mesdoc/interface/elements.rs:next_all", "src/mesdoc/interface/elements.rs:prev_all", "src/mesdoc/interface/elements.rs:children"]}
{"id": "C110", "title": "The steps from an element that has taken the place of another one", "statement": "After `t.replace_with(n)`, for elements `t` and `n` in place, `n` not `t` and not above it, the set on which the call was made holds `n` then, and `n` has the `parent` that `t` had, the `prev_all` and `next_all` that `t` had (without `n` itself where it was one of them), and as `prev` and `next` the nearest of these.", "quantifier": "for every heap with right links and all such elements, also siblings of each other", "why_tests_cant": "Where `n` comes from, before or behind `t` or from another tree, shifts all positions; trees of any shape.", "anchors": ["src/mesdoc/interface/elements.rs:replace_with", "src/lib.rs:replace_with", "src/mesdoc/interface/elements.rs:next_all", "src/mesdoc/interface/elements.rs:prev_all", "src/mesdoc/interface/elements.rs:parent"]}
