{
 "claims": [
  {
   "property": "C01",
   "status": "partial",
   "theorems": [
    "Visdom.C01_nth_exact_partial",
    "Visdom.C01_unit_step",
    "Visdom.C01_multiples",
    "Visdom.C01_index_only",
    "Visdom.C01_fails_3n_minus_1",
    "Visdom.C01_fails_odd_empty",
    "Visdom.C01_fails_2n_plus_3",
    "Visdom.C01_nth_shape",
    "Visdom.C01_search"
   ],
   "note": "Exact set for every step and offset outside the class BadNth; the library is wrong there (witnesses C01_fails_*). C01_nth_shape: in BadNth exactly one further number is computed, not below the number of children, in front or behind. C01_search: binary_search still finds exactly the selected positions."
  },
  {
   "property": "C02",
   "status": "partial",
   "theorems": [
    "Visdom.C02_floor_exact_partial",
    "Visdom.C02_ceil_exact_partial",
    "Visdom.C02_round_partial",
    "Visdom.C02_round_exact_partial",
    "Visdom.C02_fails",
    "Visdom.C02_floor_false"
   ],
   "note": "Exact conditions for all three modes (C02_floor_exact_partial, C02_ceil_exact_partial, C02_round_exact_partial): wrong exactly for quotients strictly between -1 and 0 (floor), between 0 and 1 (ceil), of absolute value from 1/2 to below 1 (round) (C02_fails)."
  },
  {
   "property": "C03",
   "status": "proved",
   "theorems": [
    "Visdom.C03_class_list_tokens",
    "Visdom.C03_class_list_round_trip",
    "Visdom.C03_class_list_stable",
    "Visdom.C03_equal_ignore_case",
    "Visdom.C03_equal_chars"
   ],
   "note": "Class list reading and writing against an independent token relation; letter-case comparison."
  },
  {
   "property": "C04",
   "status": "partial",
   "theorems": [
    "Visdom.C04_add_class_partial",
    "Visdom.C04_fails_duplicate",
    "Visdom.C04_has_class_exact"
   ],
   "note": "All inputs with at most one kind of quote, with the order of the new names; duplicates in the given names are stored exactly when the element has no class value (C04_fails_duplicate; the condition in C04_add_class_partial is an iff)."
  },
  {
   "property": "C05",
   "status": "partial",
   "theorems": [
    "Visdom.C05_remove_class_partial",
    "Visdom.C05_remove_one_class",
    "Visdom.C05_fails_out_of_order",
    "Visdom.C05_fails_repeated",
    "Visdom.C05_fails_duplicate_class",
    "Visdom.C05_exact"
   ],
   "note": "Right when the element's classes are distinct and the present names are given in the element's order (always for one name); otherwise wrong removal or panic (C05_fails_*). C05_exact: for an element without repeated classes, remove_class is right (it answers and leaves exactly the classes not named) if and only if the present names are given in the order of the element, each once."
  },
  {
   "property": "C06",
   "status": "partial",
   "theorems": [
    "Visdom.C06_toggle_class_partial",
    "Visdom.C06_fails_out_of_order",
    "Visdom.C06_exact"
   ],
   "note": "As C05, for distinct names; C06_fails_out_of_order. C06_exact: the same condition is exact for toggle_class."
  },
  {
   "property": "C07",
   "status": "partial",
   "theorems": [
    "Visdom.C07_never_panics",
    "Visdom.C07_history_partial",
    "Visdom.C07_set_get_exact",
    "Visdom.C07_set_get_partial",
    "Visdom.C07_read_back_exact_partial",
    "Visdom.C07_fails_both_quotes"
   ],
   "note": "All histories as a case-insensitive finite map, for values with at most one kind of quote; exact stored value for all values; C07_read_back_exact_partial: with entities longer than the quotes, a value is read back iff it has at most one kind of quote; witness for both kinds."
  },
  {
   "property": "C08",
   "status": "partial",
   "theorems": [
    "Visdom.C08_remove_exact",
    "Visdom.C08_remove_partial",
    "Visdom.C08_fails_capital"
   ],
   "note": "Exact: removed iff the name is given without capital letters (or was absent); witness for capitals."
  },
  {
   "property": "C09",
   "status": "partial",
   "theorems": [
    "Visdom.C09_quote_safe_partial",
    "Visdom.C09_existing_partial",
    "Visdom.C09_fails_existing",
    "Visdom.C09_need_quote",
    "Visdom.C09_need_quote_kept"
   ],
   "note": "New attributes; an overwritten attribute keeps its old quote (C09_fails_existing), and escapes exactly if this quote is the first in the new value (C09_existing_partial). C09_need_quote: a new attribute asks for quotes exactly if a character of its value does; C09_need_quote_kept: an old one keeps its flag. The entity encoder and the test of a character are parameters."
  },
  {
   "property": "C10",
   "status": "partial",
   "theorems": [
    "Visdom.C10_attr_tests_partial",
    "Visdom.C10_attr_presence",
    "Visdom.C10_attr_name_case",
    "Visdom.C10_fails_empty_operand",
    "Visdom.C10_exact_partial",
    "Visdom.C10_class_rule",
    "Visdom.C10_name_rule"
   ],
   "note": "All modes for a non-empty operand or a present attribute; [a=\"\"], [a|=\"\"] also match elements lacking a and [a!=\"\"] does not (C10_fails_empty_operand). C10_exact_partial: these are exactly the cases that go wrong."
  },
  {
   "property": "C11",
   "status": "proved",
   "theorems": [
    "Visdom.C11_contains_filter",
    "Visdom.C11_contains_chars"
   ],
   "note": "contains_chars is substring; filter(\":contains(t)\") exact on every set."
  },
  {
   "property": "C12",
   "status": "proved",
   "theorems": [
    "Visdom.C12_compare_is_document_order",
    "Visdom.C12_document_order_is_strict_total"
   ],
   "note": "Index-path comparison equals document order on every well formed tree."
  },
  {
   "property": "C13",
   "status": "proved",
   "theorems": [
    "Visdom.C13_relation_is_tree_relation"
   ],
   "note": "Prefix test on index paths equals the tree relation."
  },
  {
   "property": "C14",
   "status": "proved",
   "theorems": [
    "Visdom.C14_sort_and_unique",
    "Visdom.C14_unique_needs_sorting"
   ],
   "note": "Sorting and deduplication of any list of nodes of one document."
  },
  {
   "property": "C15",
   "status": "partial",
   "theorems": [
    "Visdom.C15_add_total",
    "Visdom.C15_add_union_partial",
    "Visdom.C15_add_loses_only_tail",
    "Visdom.C15_add_sorted_long",
    "Visdom.C15_fails_lost",
    "Visdom.C15_fails_order",
    "Visdom.C15_lost_exact",
    "Visdom.C15_order_exact",
    "Visdom.C15_exact_partial"
   ],
   "note": "Exact ordered union unless the second set contains the receiver's last element and goes beyond it; C15_exact_partial decides that case too, giving a necessary and sufficient condition for the union to be right (C15_lost_exact: elements are lost exactly when the receiver is contained in the second set; C15_order_exact: when the order is right); witnesses C15_fails_*; totality and 'nothing invented, nothing of the receiver lost' for all lists."
  },
  {
   "property": "C16",
   "status": "proved",
   "theorems": [
    "Visdom.C16_split",
    "Visdom.C16_ordered_exact",
    "Visdom.C16_is_in",
    "Visdom.C16_is_all_in",
    "Visdom.C16_is_all_in_ordered",
    "Visdom.C16_unordered_inexact"
   ],
   "note": "Split for all sets; exactness for document ordered sets; is_in / is_all_in for all sets."
  },
  {
   "property": "C17",
   "status": "partial",
   "theorems": [
    "Visdom.C17_find_any_order_near",
    "Visdom.C17_find_any_order_later",
    "Visdom.C17_find_common",
    "Visdom.C17_find_exact_partial",
    "Visdom.C17_find_basic",
    "Visdom.C17_find_elements",
    "Visdom.C17_fails_id",
    "Visdom.C17_fails_nth"
   ],
   "note": "All trees, all document-ordered starting sets; unconditional for selectors of types, classes, attributes, :root, :empty, :contains, :checked and * under all four combinators; for ids, positions, :not, :has and aliases under FindOk. Outside FindOk the library is wrong (C17_fails_*). C17_find_common: exact for selectors with safe positions, ids (not right after >), :not and :has, by conditions read off the selector (Common, calm). The aliases and lists inside :not are included when the alternatives ask for different types and the lists met come in document order. C17_find_any_order_near and C17_find_any_order_later: from a set in any order, with repetitions, > and + give exactly the elements meant, and ~ those after the first member of each parent. Formulas an+b that stand first under > or among descendants need no condition but machine words (NthWords): whenever find answers, it is right."
  },
  {
   "property": "C18",
   "status": "partial",
   "theorems": [
    "Visdom.C18_find_common",
    "Visdom.C18_find_order_partial",
    "Visdom.C18_find_descendants",
    "Visdom.C18_find_children",
    "Visdom.C18_fails_order",
    "Visdom.C18_fails_twice",
    "Visdom.C18_find_children_exact",
    "Visdom.C18_find_next_exact",
    "Visdom.C18_find_later_exact"
   ],
   "note": "Document order and no repetition for descendant-only selectors and whenever the phase computed from the combinators is sorted; otherwise false (C18_fails_*). C18_find_common: common selectors with descendant combinators answer with exactly the selected elements in order. C18_find_children_exact, C18_find_next_exact, C18_find_later_exact: the exact sorted sets from which >, + and ~ answer in document order."
  },
  {
   "property": "C19",
   "status": "partial",
   "theorems": [
    "Visdom.C19_find_any_order",
    "Visdom.C19_find_any_order_basic",
    "Visdom.C19_find_common",
    "Visdom.C19_find_common_root",
    "Visdom.C19_find_answers_partial",
    "Visdom.C19_find_basic_descendants",
    "Visdom.C19_find_basic_root",
    "Visdom.C19_fails_unreachable",
    "Visdom.C19_fails_last",
    "Visdom.C19_fails_nth",
    "Visdom.C19_fails_nth_start",
    "Visdom.C19_last_children_exact",
    "Visdom.C19_last_descendants_exact",
    "Visdom.C19_last_document",
    "Visdom.C19_nth_children_exact",
    "Visdom.C19_nth_descendants_exact"
   ],
   "note": "No panic under FindOk with tot; unconditional for basic selectors as far as descendants are looked for from tidy lists (in document order, or children or next siblings of such a list, as in div > p span); otherwise false (C19_fails_*). C19_find_common: also for common selectors whose positions stand beside a type, class or id (Steady). C19_find_any_order: from a set in any order a descendant step panics exactly when the set stumbles (an element that contains an earlier top, but not the last one), and otherwise answers exactly. C19_last_children_exact, C19_last_descendants_exact, C19_last_document: exactly when :last-child and its relatives panic. C19_nth_children_exact, C19_nth_descendants_exact: exactly when :nth-child(an+b) and its relatives panic under > and among descendants; whenever they answer they are right, for every formula."
  },
  {
   "property": "C20",
   "status": "partial",
   "theorems": [
    "Visdom.C20_two_exact_partial",
    "Visdom.C20_two_common_exact_partial",
    "Visdom.C20_find_spill_common",
    "Visdom.C20_find_list_common",
    "Visdom.C20_find_list_partial",
    "Visdom.C20_find_two_partial",
    "Visdom.C20_fails"
   ],
   "note": "Union for mutually exclusive selectors, and for two arbitrary selectors when the second result does not go beyond a shared last element of the first; otherwise false (C20_fails). C20_two_exact_partial: for two selectors with ordered results a necessary and sufficient condition; C20_two_common_exact_partial: the same for common descendant selectors with no assumption on the results. C20_find_list_common: lists of common descendant-only selectors that ask for different types answer with exactly the union in document order. The condition on lists is that no alternative spills over the union of those before it (it selects the last element found so far and goes beyond it); alternatives that exclude each other or are covered by earlier ones satisfy it."
  },
  {
   "property": "C21",
   "status": "partial",
   "theorems": [
    "Visdom.C21_optimise_same_partial",
    "Visdom.C21_optimise_basic",
    "Visdom.C21_fails"
   ],
   "note": "Same members as left to right evaluation; unconditional for basic selectors; otherwise false (C21_fails)."
  },
  {
   "property": "C22",
   "status": "partial",
   "theorems": [
    "Visdom.C22_filter_common",
    "Visdom.C22_filter_list_common",
    "Visdom.C22_fails_outside",
    "Visdom.C22_filter_exact_partial",
    "Visdom.C22_filter_basic",
    "Visdom.C22_fails_combinator",
    "Visdom.C22_fails_union",
    "Visdom.C22_fails_root"
   ],
   "note": "Exact for single compounds of any basic rules on any set in any order, and for all rules under innersOk and UnionOk; otherwise false (C22_fails_*: leading combinator, overlapping lists, class and attribute tests on a set holding the document root). C22_filter_common: common selectors on every set in which siblings come in order. C22_filter_list_common: lists of alternatives that ask for different types, on sets in document order. C22_fails_outside: a set that holds one child twice, and :nth-child(2): filter answers with an element that is not in the set."
  },
  {
   "property": "C23",
   "status": "partial",
   "theorems": [
    "Visdom.C23_not_common",
    "Visdom.C23_not_list_common",
    "Visdom.C23_not_exact_partial",
    "Visdom.C23_is_exact_partial",
    "Visdom.C23_is_all_exact_partial",
    "Visdom.C23_not_complement",
    "Visdom.C23_is_filter",
    "Visdom.C23_fails_is_all_empty",
    "Visdom.C23_fails_union"
   ],
   "note": "Complement and agreement for basic selectors on any set of elements; exact for all rules under innersOk; is_all on an empty set is false (C23_fails_is_all_empty); a set holding the root panics (C22_fails_root). C23_not_common: the complement for common selectors. C23_not_list_common: likewise for lists."
  },
  {
   "property": "C24",
   "status": "partial",
   "theorems": [
    "Visdom.C24_has_common",
    "Visdom.C24_has_exact_partial",
    "Visdom.C24_has_basic",
    "Visdom.C24_has_in",
    "Visdom.C24_fails_nth"
   ],
   "note": "has exact under innersOk, unconditional for basic selectors; has_in exact for all element sets. C24_has_common: for lists of common selectors on every set. C24_fails_nth: has with a position formula whose offset is negative panics."
  },
  {
   "property": "C25",
   "status": "partial",
   "theorems": [
    "Visdom.C25_next_all_any_partial",
    "Visdom.C25_prev_all_any_partial",
    "Visdom.C25_children",
    "Visdom.C25_next",
    "Visdom.C25_prev",
    "Visdom.C25_parent",
    "Visdom.C25_parents",
    "Visdom.C25_next_all_partial",
    "Visdom.C25_prev_all_partial",
    "Visdom.C25_siblings_partial",
    "Visdom.C25_fails_order",
    "Visdom.C25_fails_siblings_repeated",
    "Visdom.C25_siblings_any",
    "Visdom.C25_siblings_exact"
   ],
   "note": "children, next, prev, parent and parents with an empty selector are exact on every set; next_all and prev_all for sets in which siblings occur in document order, siblings for sets without repetition (C25_fails_* show both are needed). C25_next_all_any_partial and C25_prev_all_any_partial say what every other set gives: the later siblings of the first (the earlier ones of the last) member with each parent. C25_siblings_any: what siblings gives for every set, also with repetitions; C25_siblings_exact: exactly when it is right."
  },
  {
   "property": "C26",
   "status": "partial",
   "theorems": [
    "Visdom.C26_children_common",
    "Visdom.C26_next_common",
    "Visdom.C26_next_all_common",
    "Visdom.C26_parents_common",
    "Visdom.C26_siblings_common",
    "Visdom.C26_fails_compounds",
    "Visdom.C26_children_partial",
    "Visdom.C26_next_partial",
    "Visdom.C26_prev_partial",
    "Visdom.C26_parent_partial",
    "Visdom.C26_parents_partial",
    "Visdom.C26_next_all_partial",
    "Visdom.C26_prev_all_partial",
    "Visdom.C26_siblings_partial",
    "Visdom.C26_fails_id",
    "Visdom.C26_siblings_any"
   ],
   "note": "for a single compound whose rules are decided on the lists at hand: the filtered call is the unfiltered one filtered by the compound. Fails for ids with children (C26_fails_id) and for several compounds (C26_fails_compounds), whose exact meaning is C62 parents and siblings: also for aliases and lists that need document order. The *_common theorems: with conditions read off the selector alone (positions, :not, :has, aliases). C26_siblings_any: for every set, also with repetitions."
  },
  {
   "property": "C27",
   "status": "partial",
   "theorems": [
    "Visdom.C27_closest_common",
    "Visdom.C27_closest_seen_partial",
    "Visdom.C27_closest_any_partial",
    "Visdom.C27_closest_partial",
    "Visdom.C27_fails_lookup",
    "Visdom.C27_fails_repeated",
    "Visdom.C27_fails_root"
   ],
   "note": "exact for selectors whose rules are decided element by element; a selector that the parser rearranges loses the part before the middle (C27_fails_lookup), C27_closest_any_partial says exactly what is returned then; each once for sets without repetition (C27_fails_repeated); a set holding the root panics for class and attribute tests (C27_fails_root). C27_closest_common: conditions read off the selector."
  },
  {
   "property": "C28",
   "status": "partial",
   "theorems": [
    "Visdom.C28_filter_position_partial",
    "Visdom.C28_edge",
    "Visdom.C28_index",
    "Visdom.C28_only",
    "Visdom.C28_fails_nth",
    "Visdom.C28_fails_bad",
    "Visdom.C28_nth_exact_partial",
    "Visdom.C28_of_type",
    "Visdom.C28_runs_partial",
    "Visdom.C28_sets_exact",
    "Visdom.C28_fails_repeated"
   ],
   "note": "All ten pseudo-classes. C28_of_type: :nth-of-type and :nth-last-of-type for every formula. :nth-child and :nth-last-child: an+b outside BadNth (C28_fails_nth); C28_nth_exact_partial: this condition is exact; elsewhere filter panics on the children of a node (C28_fails_bad). C28_runs_partial: right on every set in which siblings that follow one another come in order; C28_sets_exact: this condition is exact, on every other set filter(':nth-of-type(n)') does not keep everything. C28_fails_repeated: there an element that is not in the set may be answered."
  },
  {
   "property": "C29",
   "status": "partial",
   "theorems": [
    "Visdom.C29_find_text_common",
    "Visdom.C29_find_root_common",
    "Visdom.C29_find_list_common",
    "Visdom.C29_filter_text_common",
    "Visdom.C29_has_text_common",
    "Visdom.C29_closest_text_common",
    "Visdom.C29_parse_partial",
    "Visdom.C29_same_selector_partial",
    "Visdom.C29_find_text_partial",
    "Visdom.C29_find_text_exact_partial",
    "Visdom.C29_filter_text_partial",
    "Visdom.C29_navigate_text_partial",
    "Visdom.C29_closest_text_partial",
    "Visdom.C29_until_text_partial",
    "Visdom.C29_fails_nested"
   ],
   "note": "Every text of a selector (any depth of nesting, blanks, all simple selectors, combinators, commas) parses to exactly the selector's parts, and every method called with the text is the method on the selector. Missing: a selector nested in :not/:has in which something follows a further nested :not/:has; the code refuses it (C29_fails_nested). The *_common theorems go from any text of a common selector to exactly the elements returned by find, filter, not, has and closest."
  },
  {
   "property": "C30",
   "status": "partial",
   "theorems": [
    "Visdom.C30_open",
    "Visdom.C30_typing",
    "Visdom.C30_typing_exact",
    "Visdom.C30_fails",
    "Visdom.C30_no_panic_partial",
    "Visdom.C30_no_heads_partial",
    "Visdom.C30_plain_partial",
    "Visdom.C30_selectors_partial"
   ],
   "note": "The parser panics on unfinished texts (C30_fails, and C30_open for every text that breaks off inside a simple selector). Proved: no panic unless some tail of the text is an unfinished simple selector (a syntactic notion of Spec/Lang) or a number is too large; consequences for plain texts and for every text of a selector; a text of a selector without escapes has a beginning that panics exactly when the selector has a class, id, attribute test or argument (C30_typing_exact)."
  },
  {
   "property": "C31",
   "status": "partial",
   "theorems": [
    "Visdom.C31_open",
    "Visdom.C31_fails",
    "Visdom.C31_forever",
    "Visdom.C31_usable_partial",
    "Visdom.C31_after_finished_partial",
    "Visdom.C31_all_rule_partial",
    "Visdom.C31_fails_all_rule"
   ],
   "note": "Fails: a panicking parse poisons the rule lock for ever (C31_fails, C31_forever; C31_open: any text breaking off inside a simple selector does it), and the walks without a selector unless one ran before (C31_fails_all_rule). Proved: calls keep working exactly as long as no parse panicked (iff), after texts of selectors, and the walks once they have run (C31_all_rule_partial)."
  },
  {
   "property": "C32",
   "status": "partial",
   "theorems": [
    "Visdom.C32_filters_partial",
    "Visdom.C32_navigate_partial",
    "Visdom.C32_find_partial",
    "Visdom.C32_until_partial",
    "Visdom.C32_empty_partial",
    "Visdom.C32_nested_partial",
    "Visdom.C32_fails_empty"
   ],
   "note": "Fails on empty sets for find, closest, siblings and the until methods (C32_fails_empty). Proved for all methods on non-empty sets (empty result, exactly one report), and for the other methods on empty sets."
  },
  {
   "property": "C33",
   "status": "partial",
   "theorems": [
    "Visdom.C33_history_partial",
    "Visdom.C33_handles_stay",
    "Visdom.C33_fails",
    "Visdom.C33_fails_cycle"
   ],
   "note": "Links right after every finite history of insertions, removals, replacements and text/html changes whose operations use nodes that are in place and fragments not yet used; stale nodes, reused fragments and replace_with by an ancestor break it (C33_fails, C33_fails_cycle)."
  },
  {
   "property": "C34",
   "status": "partial",
   "theorems": [
    "Visdom.C34_remove_partial",
    "Visdom.C34_fails",
    "Visdom.C34_remove_exact_partial",
    "Visdom.C34_twice"
   ],
   "note": "Exact effect of remove on an element that is in place; remove_child leaves parent and index of the removed node, so a second removal takes out the next sibling or panics (C34_fails). C34_remove_exact_partial: for nodes in place, right if and only if none with a parent is given twice; C34_twice: a second removal takes the next sibling, or panics."
  },
  {
   "property": "C35",
   "status": "partial",
   "theorems": [
    "Visdom.C35_inside_partial",
    "Visdom.C35_beside_partial",
    "Visdom.C35_fails_refused",
    "Visdom.C35_fails_lost",
    "Visdom.C35_inside_lost",
    "Visdom.C35_beside_lost",
    "Visdom.C35_exact_partial"
   ],
   "note": "Exact child lists for one node or one fragment at all four positions, for accepted insertions at a target with a parent (before/after); nodes are lost when the tag list refuses them or the target has no parent (C35_fails_*). C35_exact_partial: the moved nodes stay in the document if and only if the tag rules accept them, or the target has a parent."
  },
  {
   "property": "C36",
   "status": "partial",
   "theorems": [
    "Visdom.C36_prepend_partial",
    "Visdom.C36_after_partial",
    "Visdom.C36_append_reversed",
    "Visdom.C36_before_reversed",
    "Visdom.C36_roles_partial",
    "Visdom.C36_fails",
    "Visdom.C36_append_exact_partial",
    "Visdom.C36_before_exact_partial"
   ],
   "note": "prepend and after keep the order for every list of distinct nodes; append and before are proved to reverse it (C36_append_reversed, C36_before_reversed, C36_fails). C36_append_exact_partial, C36_before_exact_partial: the order is right if and only if at most one node is given."
  },
  {
   "property": "C37",
   "status": "partial",
   "theorems": [
    "Visdom.C37_refused",
    "Visdom.C37_acyclic_partial",
    "Visdom.C37_fails_fragment",
    "Visdom.C37_fails_self",
    "Visdom.C37_fails_replace",
    "Visdom.C37_replace_exact_partial"
   ],
   "note": "Refusal leaves the heap unchanged, and accepted insertions keep the forest acyclic; a reused fragment or replace_with by an ancestor makes a cycle, or an element its own parent (C37_fails_*). C37_replace_exact_partial: replace_with by an element answers and leaves no cycle if and only if it is neither the element itself nor above it."
  },
  {
   "property": "C38",
   "status": "partial",
   "theorems": [
    "Visdom.C38_once_partial",
    "Visdom.C38_fails",
    "Visdom.C38_fragment_twice"
   ],
   "note": "Elements in place, any number of targets that do not lose nodes; a fragment is duplicated (C38_fails). C38_fragment_twice: a fragment appended or prepended to two different elements ends with its nodes in both lists."
  },
  {
   "property": "C39",
   "status": "partial",
   "theorems": [
    "Visdom.C39_handles_fragment",
    "Visdom.C39_handles_element",
    "Visdom.C39_one_partial",
    "Visdom.C39_several",
    "Visdom.C39_fails"
   ],
   "note": "One new node or fragment: exactly its nodes at the element's position, everything else in place; several new nodes: what the code does (C39_several), only the first is kept (C39_fails). C39_handles_fragment, C39_handles_element: what the members of the set refer to afterwards."
  },
  {
   "property": "C40",
   "status": "partial",
   "theorems": [
    "Visdom.C40_text_exact_partial",
    "Visdom.C40_element",
    "Visdom.C40_content_tag",
    "Visdom.C40_text_partial",
    "Visdom.C40_append_partial",
    "Visdom.C40_prepend_partial",
    "Visdom.C40_other",
    "Visdom.C40_fails_empty",
    "Visdom.C40_fails_entity",
    "Visdom.C40_fails_append"
   ],
   "note": "Elements and content tags exact; text nodes for a non-empty text, which is stored without encoding (C40_fails_empty, C40_fails_entity); append/prepend panic on a text without content (C40_fails_append). Rendering and encoding are parameters. C40_text_exact_partial: on a text node the text is read back if and only if decoding leaves it as it is (or it is empty as before)."
  },
  {
   "property": "C41",
   "status": "partial",
   "theorems": [
    "Visdom.C41_element",
    "Visdom.C41_content_tag",
    "Visdom.C41_text_partial",
    "Visdom.C41_other",
    "Visdom.C41_fails_empty",
    "Visdom.C41_fails_root",
    "Visdom.C41_text_exact_partial",
    "Visdom.C41_root_panics"
   ],
   "note": "Elements and content tags exact; text nodes for a non-empty parse; set_html(\"\") on a text node clears its parent's list (C41_fails_empty), a text under the root panics (C41_fails_root). HTML parsing is a parameter. C41_text_exact_partial: on a text node right if and only if the parser gives a list or the text is the only child; C41_root_panics: always under the root."
  },
  {
   "property": "C42",
   "status": "partial",
   "theorems": [
    "Visdom.C42_texts_by_rec",
    "Visdom.C42_leaf",
    "Visdom.C42_texts",
    "Visdom.C42_all_texts",
    "Visdom.C42_concat",
    "Visdom.C42_concat_by",
    "Visdom.C42_set_partial",
    "Visdom.C42_set_exact_partial",
    "Visdom.C42_fails_nested"
   ],
   "note": "One element: exact, for every depth, in document order; any set: the texts of its elements one after the other (C42_concat; C42_concat_by for texts_by and texts_by_rec); texts(0) of an ordered set is in document order iff no element with text lies inside another one (C42_set_exact_partial); nested sets repeat texts (C42_fails_nested)."
  },
  {
   "property": "C43",
   "status": "partial",
   "theorems": [
    "Visdom.C43_eq",
    "Visdom.C43_first",
    "Visdom.C43_last_partial",
    "Visdom.C43_last_fails_empty",
    "Visdom.C43_slice_partial",
    "Visdom.C43_slice_panics_iff",
    "Visdom.C43_slice_fails_reversed",
    "Visdom.C43_slice_fails_excluded"
   ],
   "note": "eq, first for all inputs; last on non-empty sets; slice whenever it does not hit an excluded start, a reversed range or usize::MAX; exact panic condition."
  },
  {
   "property": "C44",
   "status": "proved",
   "theorems": [
    "Visdom.C44_filter_by",
    "Visdom.C44_not_by",
    "Visdom.C44_is_by",
    "Visdom.C44_map",
    "Visdom.C44_for_each",
    "Visdom.C44_map_state",
    "Visdom.C44_for_each_mut"
   ],
   "note": "All callbacks; for_each with an arbitrary state."
  },
  {
   "property": "C45",
   "status": "partial",
   "theorems": [
    "Visdom.C45_until_common",
    "Visdom.C45_until_seen_partial",
    "Visdom.C45_next_until_partial",
    "Visdom.C45_prev_until_partial",
    "Visdom.C45_parents_until_partial",
    "Visdom.C45_next_until_any_partial",
    "Visdom.C45_prev_until_any_partial",
    "Visdom.C45_next_until_set_partial",
    "Visdom.C45_prev_until_set_partial",
    "Visdom.C45_fails_lookup",
    "Visdom.C45_fails_siblings"
   ],
   "note": "next_until, prev_until and parents_until from every set, exactly: next_until walks from the first, prev_until from the last of the members with one parent (C45_next_until_any_partial, C45_prev_until_any_partial; C45_fails_siblings: not from the others). Selectors that the parser rearranges are tested without the part before the middle (C45_fails_lookup); C45_until_seen_partial says exactly what is left. C45_until_common: conditions read off the selectors."
  },
  {
   "property": "C46",
   "status": "proved",
   "theorems": [
    "Visdom.C46_no_deadlock",
    "Visdom.C46_completes"
   ],
   "note": "No reachable state of any number of threads running any sequence of calls is a deadlock, and every execution is finite and ends with all calls finished."
  },
  {
   "property": "C47",
   "status": "partial",
   "theorems": [
    "Visdom.C47_template_partial",
    "Visdom.C47_template_few_hashes",
    "Visdom.C47_exact_partial",
    "Visdom.C47_fails",
    "Visdom.C47_single_brace",
    "Visdom.C47_wrong_placeholder",
    "Visdom.C47_unclosed",
    "Visdom.C47_rule_table"
   ],
   "note": "Fails for short parameters in three or more hashes (C47_fails). C47_exact_partial: the text of a rule compiles to the patterns it denotes exactly when its parameters leave the search for their end enough room, and overflows otherwise; unconditional for one or two hashes; the rule table of the parser model is what the library's templates compile to."
  },
  {
   "property": "C48",
   "status": "partial",
   "theorems": [
    "Visdom.C48_input",
    "Visdom.C48_multiple_partial",
    "Visdom.C48_deep",
    "Visdom.C48_single_partial",
    "Visdom.C48_textarea",
    "Visdom.C48_other",
    "Visdom.C48_fails_disabled",
    "Visdom.C48_fails_group",
    "Visdom.C48_fails_text",
    "Visdom.C48_fails_deep"
   ],
   "note": "input, option, textarea, other elements exact; select: exactly the selected options in document order, the first of them, or the first option among its children, and a stack overflow exactly if an element lies 256 levels down a way that the search takes (C48_deep). Disagreements: disabled default, options in an optgroup as default, option without value attribute, depth over 255 (C48_fails_*). text() of a textarea is a parameter."
  },
  {
   "property": "C49",
   "status": "partial",
   "theorems": [
    "Visdom.C49_checked_partial",
    "Visdom.C49_exact_partial",
    "Visdom.C49_fails"
   ],
   "note": "Exact with respect to the library's criterion; HTML's criterion when no earlier sibling holds a selected option (C49_fails); C49_exact_partial: the answer is HTML's if and only if the element is not a default option of the library with a selected option below an earlier sibling."
  },
  {
   "property": "C50",
   "status": "proved",
   "theorems": [
    "Visdom.C50_empty",
    "Visdom.C50_root"
   ],
   "note": "Every set in every order."
  },
  {
   "property": "C51",
   "status": "proved",
   "theorems": [
    "Visdom.C51_find_header",
    "Visdom.C51_header",
    "Visdom.C51_input",
    "Visdom.C51_submit"
   ],
   "note": "Document ordered sets. C51_find_header: find(\":header\") from any document ordered set."
  },
  {
   "property": "C52",
   "status": "partial",
   "theorems": [
    "Visdom.C52_filter_partial",
    "Visdom.C52_exact_partial",
    "Visdom.C52_fails"
   ],
   "note": "Exactly when it answers is proved (C52_exact_partial): a kept content tag panics (C52_fails), nothing else does."
  },
  {
   "property": "C53",
   "status": "partial",
   "theorems": [
    "Visdom.C53_remove_exact_partial",
    "Visdom.C53_remove_partial",
    "Visdom.C53_fails"
   ],
   "note": "Exact for distinct texts that are in place; a repeated text removes its next sibling or panics (C53_fails). C53_remove_exact_partial: right if and only if no text with a parent is given twice."
  },
  {
   "property": "C54",
   "status": "partial",
   "theorems": [
    "Visdom.C54_nodes_kept",
    "Visdom.C54_find_after",
    "Visdom.C54_filter_after",
    "Visdom.C54_filter_after_partial",
    "Visdom.C54_fails_root",
    "Visdom.C54_find_common_after",
    "Visdom.C54_text_after",
    "Visdom.C54_mixed_goes_on",
    "Visdom.C54_find_mixed",
    "Visdom.C54_filter_mixed",
    "Visdom.C54_mixed_ready"
   ],
   "note": "find after any history of usable calls, also mixed with attribute and class methods on any nodes, for basic selectors, is exact; filter is exact for single compounds, and for several compounds when all nodes of the tree know its root. Names, kinds and attributes never change by tree changes. Missing: nodes moved in from a fragment keep the root link of the fragment, so filter/is/not with several compounds miss them (C54_fails_root); calls with nodes that are out of place (see C33). C54_find_common_after: also for positions, :not and :has. C54_text_after: the same starting from the texts of selectors, lists included."
  },
  {
   "property": "C55",
   "status": "partial",
   "theorems": [
    "Visdom.C55_set_attr_partial",
    "Visdom.C55_remove_attr_partial",
    "Visdom.C55_has_attr",
    "Visdom.C55_add_class_partial",
    "Visdom.C55_remove_class_partial",
    "Visdom.C55_toggle_class_partial",
    "Visdom.C55_has_class",
    "Visdom.C55_fails_root",
    "Visdom.C55_fails_toggle_twice",
    "Visdom.C55_toggle_parity_partial",
    "Visdom.C55_toggle_back_partial"
   ],
   "note": "set_attr for values with at most one kind of quote, remove_attr for names without capital letters, add_class and remove_class under the conditions of C04-C05 on any set, toggle_class under those of C06 on any set: C55_toggle_parity_partial says what an element listed several times ends with (odd: toggled, even: as before), C55_toggle_back_partial that toggling twice gives the old classes back, so the text of the claim fails exactly for even counts (C55_fails_toggle_twice); panics on the document root by witness"
  },
  {
   "property": "C56",
   "status": "partial",
   "theorems": [
    "Visdom.C56_set_attr_partial",
    "Visdom.C56_remove_attr_partial",
    "Visdom.C56_add_class_partial",
    "Visdom.C56_remove_class_partial",
    "Visdom.C56_toggle_class_partial",
    "Visdom.C56_fails_id",
    "Visdom.C56_toggle_parity_partial"
   ],
   "note": "under the conditions of C55; toggle_class on any set (C56_toggle_parity_partial: the answer changes for the elements listed an odd number of times); non-empty values; ids are left out because rphtml keeps the table of ids (C56_fails_id)"
  },
  {
   "property": "C57",
   "status": "partial",
   "theorems": [
    "Visdom.C57_any",
    "Visdom.C57_lists",
    "Visdom.C57_order_partial",
    "Visdom.C57_fails_capital"
   ],
   "note": "contents in full; order for histories whose removals use names without capital letters C57_any: the names listed, and their order, after every history (a removal under a name with capital letters leaves the name listed)."
  },
  {
   "property": "C58",
   "status": "proved",
   "theorems": [
    "Visdom.C58_methods",
    "Visdom.C58_siblings_method",
    "Visdom.C58_history",
    "Visdom.C58_siblings",
    "Visdom.C58_inverse",
    "Visdom.C58_fails_removed"
   ],
   "note": "The statement speaks about elements in place in a well-formed tree. C58_methods says it of the set methods children, parent, prev, next, prev_all and next_all, C58_siblings_method of siblings, C58_history of the former after any history of usable calls. For a removed element, whose parent and index are stale, it is false: C58_fails_removed."
  },
  {
   "property": "C59",
   "status": "proved",
   "theorems": [
    "Visdom.C59_elements",
    "Visdom.C59_title"
   ],
   "note": "Text rendering is the parameter env.text."
  },
  {
   "property": "C60",
   "status": "proved",
   "theorems": [
    "Visdom.C60_set_text",
    "Visdom.C60_empty",
    "Visdom.C60_filter_empty"
   ],
   "note": "Sets of elements (the document root in a set is passed over by the code and not covered). Content tags and the entity encoder are parameters."
  },
  {
   "property": "C61",
   "status": "partial",
   "theorems": [
    "Visdom.C61_to_list_exact",
    "Visdom.C61_is_str",
    "Visdom.C61_to_list_partial",
    "Visdom.C61_class_list_partial",
    "Visdom.C61_fails_exotic",
    "Visdom.C61_multiple",
    "Visdom.C61_fails_single"
   ],
   "note": "Missing: values beginning or ending with non-ASCII white space (C61_fails_exotic); iterating over a single form value gives nothing (C61_fails_single). C61_to_list_exact: to_list gives the words of a value if and only if the value has ordinary ends."
  },
  {
   "property": "C62",
   "status": "partial",
   "theorems": [
    "Visdom.C62_children_common",
    "Visdom.C62_next_common",
    "Visdom.C62_prev_common",
    "Visdom.C62_anti_common",
    "Visdom.C62_parent_common",
    "Visdom.C62_next_all_common",
    "Visdom.C62_parents_common",
    "Visdom.C62_siblings_common_partial",
    "Visdom.C62_children",
    "Visdom.C62_next",
    "Visdom.C62_prev",
    "Visdom.C62_parent",
    "Visdom.C62_next_all",
    "Visdom.C62_prev_all",
    "Visdom.C62_parents",
    "Visdom.C62_siblings_partial",
    "Visdom.C62_children_find",
    "Visdom.C62_fails_siblings"
   ],
   "note": "exact for children, next, prev, parent, parents, next_all, prev_all whenever they answer (basic selectors), and with a guaranteed answer for common selectors; siblings when the first compound is the heaviest; siblings with another selector misses elements or panics (C62_fails_siblings)"
  },
  {
   "property": "C63",
   "status": "partial",
   "theorems": [
    "Visdom.C63_answers_partial",
    "Visdom.C63_isolated",
    "Visdom.C63_document_partial",
    "Visdom.C63_clone_partial",
    "Visdom.C63_fails_used"
   ],
   "note": "unconditional for parts of the heap without links to the rest (C63_isolated); for documents and clones when no fragment has been used before; a fragment that has been inserted keeps its list of children, and inserting it elsewhere changes the document (C63_fails_used); rphtml's parser and clone_node are parameters with the contract World.Ok C63_answers_partial: after such calls every method with every text and every set of the document's nodes answers as before, panics and reports included."
  },
  {
   "property": "C64",
   "status": "proved",
   "theorems": [
    "Visdom.C64_find_twice_any",
    "Visdom.C64_find_twice_common",
    "Visdom.C64_find_filter_common",
    "Visdom.C64_find_not_common",
    "Visdom.C64_find_has_common",
    "Visdom.C64_filter_twice_common",
    "Visdom.C64_find_children_any",
    "Visdom.C64_fails_looked",
    "Visdom.C64_find_twice",
    "Visdom.C64_find_twice_members",
    "Visdom.C64_find_filter",
    "Visdom.C64_find_matches",
    "Visdom.C64_find_union",
    "Visdom.C64_has_find",
    "Visdom.C64_children_parent",
    "Visdom.C64_next_prev",
    "Visdom.C64_parents",
    "Visdom.C64_parents_find",
    "Visdom.C64_next_all",
    "Visdom.C64_siblings",
    "Visdom.C64_has_several"
   ],
   "note": "Equal lists for descendant combinators, equal members otherwise (whenever both calls answer). For several compounds has and find differ (C64_has_several): has also counts elements outside of the member. Laws for common selectors, as texts: C64_find_twice_common, C64_find_filter_common, C64_find_not_common, C64_find_has_common, C64_filter_twice_common. Without any condition on tree or set: C64_find_twice_any (selectors that are not rearranged), C64_find_children_any. C64_fails_looked: outside of these classes the one call may panic where the other answers."
  },
  {
   "property": "C65",
   "status": "partial",
   "theorems": [
    "Visdom.C65_contains_partial",
    "Visdom.C65_contains_chain",
    "Visdom.C65_fails_contains"
   ],
   "note": "Exact for Children, ChildrenAll, Next, NextAll and Chain on every set; Parent, ParentAll, Prev, PrevAll and Siblings panic on every set (C65_fails_contains)."
  },
  {
   "property": "C66",
   "status": "proved",
   "theorems": [
    "Visdom.C66_accepted",
    "Visdom.C66_refused_partial",
    "Visdom.C66_plain",
    "Visdom.C66_malformed"
   ],
   "note": "C66_accepted gives a reading for every accepted text; where a text has several readings (:not(a):not(b) can also be read as :not with the text a):not(b) the theorems of C29 fix the one for texts of the grammar. C66_refused_partial (every text without a reading is refused) needs the hypotheses of C30, since unfinished texts panic."
  },
  {
   "property": "C67",
   "status": "proved",
   "theorems": [
    "Visdom.C67_set_html"
   ],
   "note": "For all sets of elements, nested or repeated; the HTML parser is a parameter whose contract is ParseOk and ParsesTo."
  },
  {
   "property": "C68",
   "status": "partial",
   "theorems": [
    "Visdom.C68_same_effect",
    "Visdom.C68_accepted",
    "Visdom.C68_refused_partial",
    "Visdom.C68_unheard",
    "Visdom.C68_refused_all_partial",
    "Visdom.C68_set_text_partial",
    "Visdom.C68_load_failed",
    "Visdom.C68_load_ok",
    "Visdom.C68_heard_partial",
    "Visdom.C68_fails_moved",
    "Visdom.C68_fails_made"
   ],
   "note": "Proved for the document the node was loaded with, after any sequence of events. The document the node is in now: refuted for nodes that were moved (C68_fails_moved) and for nodes made by set_html and set_text (C68_fails_made)."
  },
  {
   "property": "C69",
   "status": "proved",
   "theorems": [
    "Visdom.C69_identity",
    "Visdom.C69_links",
    "Visdom.C69_near"
   ],
   "note": "for all call sequences that do not panic, in heaps of any shape"
  },
  {
   "property": "C70",
   "status": "partial",
   "theorems": [
    "Visdom.C70_exact",
    "Visdom.C70_node",
    "Visdom.C70_held_partial",
    "Visdom.C70_after_partial",
    "Visdom.C70_below",
    "Visdom.C70_fails_links",
    "Visdom.C70_fails_dropped",
    "Visdom.C70_fails_fragment"
   ],
   "note": "Exact condition: the program sees the heap as it stands iff no link of a node in memory leads to something freed (C70_exact). Holds while the documents of all held nodes, and the documents these nodes came from, are held (C70_held_partial, C70_after_partial after any usable history). Fails otherwise: links lost in any case (C70_fails_links), find panics and is/parent are wrong after the loaded set is dropped (C70_fails_dropped), inserted nodes of a dropped fragment (C70_fails_fragment). What lies below a held element always stays (C70_below)."
  },
  {
   "property": "C71",
   "status": "partial",
   "theorems": [
    "Visdom.C71_children",
    "Visdom.C71_next",
    "Visdom.C71_prev",
    "Visdom.C71_has",
    "Visdom.C71_has_in",
    "Visdom.C71_filter_partial",
    "Visdom.C71_not_partial",
    "Visdom.C71_is_partial",
    "Visdom.C71_is_all_partial",
    "Visdom.C71_find_partial",
    "Visdom.C71_fails_clone",
    "Visdom.C71_fails_add",
    "Visdom.C71_fails_find",
    "Visdom.C71_fails_filter",
    "Visdom.C71_fails_siblings"
   ],
   "note": "Proved for every heap and every set: children, next, prev (no selector or one compound of basic rules), has (every selector), has_in, filter, not, is, is_all (one compound of basic rules), and find where no element of the second set has the place of an element of the first or below it. False in general: add loses elements at the same place in another document (C71_fails_add), find panics or loses elements (C71_fails_find; C71_fails_clone for every pair of parentless elements of the same index; clones of first children are such, whether rphtml keeps the index of a copy or sets it to 0), filter and not with several compounds test everything against the root of the first element (C71_fails_filter), parent, next_all, prev_all and siblings take parents at the same place for one (C71_fails_siblings)."
  },
  {
   "property": "C72",
   "status": "partial",
   "theorems": [
    "Visdom.C72_html",
    "Visdom.C72_outer",
    "Visdom.C72_sets",
    "Visdom.C72_children",
    "Visdom.C72_same",
    "Visdom.C72_elsewhere",
    "Visdom.C72_clone",
    "Visdom.C72_attributes",
    "Visdom.C72_inside_partial",
    "Visdom.C72_beside_partial",
    "Visdom.C72_replace_partial",
    "Visdom.C72_remove_partial",
    "Visdom.C72_set_html_partial",
    "Visdom.C72_set_text",
    "Visdom.C72_fails_used",
    "Visdom.C72_move_inside_partial",
    "Visdom.C72_move_beside_partial",
    "Visdom.C72_move_replace_partial"
   ],
   "note": "The walk of rphtml's build is modelled with the strings for single nodes as parameters (Model/Html.lean). Proved without further conditions: totality and agreement with the specification, outer_html from html, sets, clones, calls elsewhere, attribute changes, set_text. For insertions and replacements the inserted nodes are accepted, and the list that receives them is not that of a content tag; nodes from outside the element whose html is looked at change it at one place (C72_inside_partial, C72_beside_partial, C72_replace_partial); an element that moves inside it disappears at its old place and appears at its new one, also when it comes from inside the target (C72_move_inside_partial, C72_move_beside_partial, C72_move_replace_partial). The full claim fails for a fragment that has been used: it is still written with the nodes that left it (C72_fails_used)."
  },
  {
   "property": "C73",
   "status": "partial",
   "theorems": [
    "Visdom.C73_divide",
    "Visdom.C73_overflow_partial",
    "Visdom.C73_positions_partial",
    "Visdom.C73_ordinary",
    "Visdom.C73_fails",
    "Visdom.C73_divide_partial"
   ],
   "note": "Exact: get_allowed_indexs overflows exactly for the formulas of Spec.Overflows (a = isize::MIN with b > 0, or a > 0 with 1 - b or total - b above isize::MAX; C73_fails) and otherwise computes what the model of C01 does; numbers of up to 18 digits are never affected (C73_ordinary). Every answer of divide_isize, for all three ways of rounding, is the one with unbounded integers (C73_divide)."
  },
  {
   "property": "C74",
   "status": "partial",
   "theorems": [
    "Visdom.C74_document_exact",
    "Visdom.C74_document",
    "Visdom.C74_after",
    "Visdom.C74_dropped",
    "Visdom.C74_fails_moved",
    "Visdom.C74_fails_made"
   ],
   "note": "Exact for every set (C74_document_exact) in terms of the document each node was loaded with; for the nodes of a loaded document after any sequence of mutations and loads (C74_after). The document a node is in now: refuted for moved nodes (C74_fails_moved) and for nodes made by set_html and set_text, which have none (C74_fails_made)."
  },
  {
   "property": "C75",
   "status": "partial",
   "theorems": [
    "Visdom.C75_there_and_back_partial",
    "Visdom.C75_same_place_partial",
    "Visdom.C75_again_partial",
    "Visdom.C75_insert_remove_partial",
    "Visdom.C75_reinsert",
    "Visdom.C75_replace_back",
    "Visdom.C75_emptied_partial",
    "Visdom.C75_fails",
    "Visdom.C75_html_back_partial",
    "Visdom.C75_html_removed_partial",
    "Visdom.C75_replaced_again"
   ],
   "note": "Proved for moves there and back, insertions at the same place, repeated insertions, new elements inserted and removed, children of emptied elements. A removed element that is inserted again always takes its former next sibling out of the document, or panics when there was none (C75_reinsert); the same for an element that was replaced (C75_replace_back; C75_replaced_again for replacement with any node in place): remove_child leaves the parent and the index of the removed element. Props/BackHtml: `C75_html_back_partial` and `C75_html_removed_partial` state the same for what is seen: every html and outer_html is the one before."
  },
  {
   "property": "C76",
   "status": "partial",
   "theorems": [
    "Visdom.C76_find_partial",
    "Visdom.C76_find_root_partial",
    "Visdom.C76_filter_partial",
    "Visdom.C76_has_partial",
    "Visdom.C76_closest_partial",
    "Visdom.C76_edge_partial",
    "Visdom.C76_only_partial",
    "Visdom.C76_even_partial",
    "Visdom.C76_class_partial",
    "Visdom.C76_fails_child",
    "Visdom.C76_fails_order"
   ],
   "note": "The relation Alike of Spec/Same.lean is generated by the laws. C76_find_partial (descendant combinators, sets in document order), C76_find_root_partial (every combinator, from the root), C76_filter_partial (filter, not, is, is_all on sets in which siblings come in order), C76_has_partial, C76_closest_partial: for common selectors. C76_edge_partial, C76_only_partial, C76_even_partial, C76_class_partial: instances with their texts. Where it fails: after `>` on elements without children one spelling panics and the other does not, and the order of simple selectors matters (C76_fails_child); sets in which siblings are out of order (C76_fails_order)."
  },
  {
   "property": "C77",
   "status": "partial",
   "theorems": [
    "Visdom.C77_written_partial",
    "Visdom.C77_remove_exact_partial",
    "Visdom.C77_unwritten",
    "Visdom.C77_fails_capital"
   ],
   "note": "Proved for every history whose removals spell the name without capital letters (C77_written_partial), from tables that are in step (no attribute given twice in the source). C77_remove_exact_partial: for a removal this condition (or the absence of the attribute) is necessary and sufficient. Otherwise false (C77_fails_capital); C77_unwritten: after remove_attr under a name with capital letters, whatever is set under the name can be read but is never written, until it is removed under its name in small letters. How rphtml writes one attribute is not modelled."
  },
  {
   "property": "C78",
   "status": "partial",
   "theorems": [
    "Visdom.C78_history_partial",
    "Visdom.C78_remove_partial",
    "Visdom.C78_remove_list_partial",
    "Visdom.C78_again_partial",
    "Visdom.C78_fails_next",
    "Visdom.C78_fails_empty",
    "Visdom.C78_fails_first",
    "Visdom.C78_fails_twice",
    "Visdom.C78_history_list_partial"
   ],
   "note": "C78_history_partial: for every history of admissible calls over a heap, every selector of own tests joined by descendant and child combinators, every set of searched nodes none of which was touched: an untouched element is found afterwards iff it was found before (touched: an argument of a call, or inside one). C78_remove_partial / C78_remove_list_partial: after removeAll of distinct elements the search answers with what it found before less the removed and what is inside them; from the root with descendant combinators the new answer is the old list filtered, in the same order, and both searches end. C78_again_partial: doc.find(s).remove() and doc.find(s) again is empty for own tests with descendant, child and following-sibling combinators. Missing: tests that look at other nodes; C78_fails_next, C78_fails_empty and C78_fails_first show that `+`, `:empty` and positions cannot have it, C78_fails_twice that the removal itself panics when the search gives an element twice (C18). C78_history_list_partial: from the document with descendant combinators the two answers, restricted to unmoved elements, are the same list."
  },
  {
   "property": "C79",
   "status": "partial",
   "theorems": [
    "Visdom.C79_select",
    "Visdom.C79_navigate",
    "Visdom.C79_has",
    "Visdom.C79_all_partial",
    "Visdom.C79_siblings_partial",
    "Visdom.C79_until",
    "Visdom.C79_white",
    "Visdom.C79_nested_not",
    "Visdom.C79_fails_white"
   ],
   "note": "C79_select, C79_has, C79_navigate, C79_until, C79_nested_not: the empty text for every method, no report, the exact sets (all_partial and siblings_partial under the conditions of C25 on the order and repetition of the set). C79_white: a non-empty text of white space is always refused by the parser (so C32 gives the results of the methods), C79_siblings_partial: siblings takes it for the empty selector. C79_fails_white: hence the methods disagree on a text of white space, that part of the property fails."
  },
  {
   "property": "C80",
   "status": "proved",
   "theorems": [
    "Visdom.C80_children",
    "Visdom.C80_order"
   ],
   "note": "C80_children: the lists of untouched children before and after are equal. C80_order: untouched nodes are in the document, with the same parent, and Before is the same relation among them. The calls are the usable ones of C37; nodes that a call moves or takes away (Touched) are exactly those whose place may change."
  },
  {
   "property": "C81",
   "status": "partial",
   "theorems": [
    "Visdom.C81_inserts_partial",
    "Visdom.C81_removals",
    "Visdom.C81_remove_insert_partial",
    "Visdom.C81_attrs_apart",
    "Visdom.C81_attrs_partial",
    "Visdom.C81_attr_insert_partial",
    "Visdom.C81_attr_remove",
    "Visdom.C81_fails_one_name",
    "Visdom.C81_fails_one_place",
    "Visdom.C81_inserts_all_partial"
   ],
   "note": "Proved: insertions of two nodes at different places (C81_inserts_partial: accepted single nodes, neither target at or below the other moved node; tags that let elements in), removals in any order of any set of attached nodes (C81_removals), insertion and removal (C81_remove_insert_partial), attribute calls about disjoint sets give the very same heap (C81_attrs_apart), attribute call with insertion or removal of any node (C81_attr_insert_partial, C81_attr_remove), writes under different names on one element (C81_attrs_partial, for the values of C07). Missing: it is false for one place and for nodes put into each other (C81_fails_one_place), and for one name in two letter cases (C81_fails_one_name). C81_inserts_all_partial: also with fragments as inserted nodes (neither insertion moves the target of the other or what the other moves; whether a root is a document depends on its own children only)."
  },
  {
   "property": "C82",
   "status": "partial",
   "theorems": [
    "Visdom.C82_find_partial",
    "Visdom.C82_find_root_partial",
    "Visdom.C82_filter_partial",
    "Visdom.C82_has_partial",
    "Visdom.C82_closest_partial",
    "Visdom.C82_states_partial",
    "Visdom.C82_there_and_back_partial",
    "Visdom.C82_removals_partial",
    "Visdom.C82_inserts_partial",
    "Visdom.C82_fails_root"
   ],
   "note": "Proved for all pairs of well formed trees with a correspondence of nodes (Mirror: children, kinds, names and attributes; nothing about links to the parent, positions or roots): find from any sorted set with common selectors of descendant combinators (C82_find_partial: the lists correspond), find from the root with any combinators (C82_find_root_partial: the same elements), filter, not, is, is_all (C82_filter_partial), has (C82_has_partial), closest (C82_closest_partial). Consequences: SameAnswers after a move there and back (C82_there_and_back_partial), removals in any order (C82_removals_partial), insertions in either order (C82_inserts_partial). Missing: false where link to the root of a node is that of a fragment it came from (C82_fails_root: filter(\"div b\") after an insertion differs from the same document loaded whole); selectors outside Common, on which C17 and C22 fail. C83 removes the restriction to common selectors and ordered sets for all pairs of states whose links to roots correspond."
  },
  {
   "property": "C83",
   "status": "proved",
   "theorems": [
    "Visdom.C83_copies",
    "Visdom.C83_inside",
    "Visdom.C83_sets",
    "Visdom.C83_document",
    "Visdom.C83_states",
    "Visdom.C83_there_and_back",
    "Visdom.C83_removals",
    "Visdom.C83_inserts",
    "Visdom.C83_elsewhere"
   ],
   "note": "C83_copies covers all 18 calls with selectors for every text, panics and numbers of reports included; C83_inside says that nothing outside the trees is ever returned; C83_sets and C83_document cover calls with a second set and the accessors of a document; C83_states, C83_there_and_back, C83_removals and C83_inserts apply it to states reached by different calls. The correspondence of root links is needed: C82_fails_root. Environment functions taken from rphtml (get_element_by_id, document test, texts) are assumed to correspond, as stated in Copies. C83_elsewhere and C63_answers_partial: calls about other parts of the heap."
  },
  {
   "property": "C84",
   "status": "proved",
   "theorems": [
    "Visdom.C84_elements",
    "Visdom.C84_selections",
    "Visdom.C84_program",
    "Visdom.C84_document"
   ],
   "note": "C84_elements: the methods that look for nodes, for every text. C84_selections: filter, closest, not, has. C84_program and C84_document: every program of such calls. Assumed: TreeWF of the trees and, of rphtml's index, that get_element_by_id answers with elements of the trees."
  },
  {
   "property": "C85",
   "status": "proved",
   "theorems": [
    "Visdom.C85_ends",
    "Visdom.C85_steps",
    "Visdom.C85_sets",
    "Visdom.C85_parser",
    "Visdom.C85_fails_cycle",
    "Visdom.C85_reads",
    "Visdom.C85_changes"
   ],
   "note": "The statement is about well formed trees: C85_ends, C85_steps, C85_sets (queries), C85_parser (every text), C85_reads (texts, values, html), C85_changes (any single change on a state with right links, sensible or not; the parser of html is assumed to end). Where C37 is violated the trees are no longer well formed: C85_fails_cycle is a state reached by three calls on which find recurses for ever. Calls into rphtml and the regular expression engine are taken to return."
  },
  {
   "property": "C86",
   "status": "partial",
   "theorems": [
    "Visdom.C86_load",
    "Visdom.C86_load_answers",
    "Visdom.C86_write_back_partial",
    "Visdom.C86_from_other_partial",
    "Visdom.C86_content",
    "Visdom.C86_fails_forbidden",
    "Visdom.C86_fails_root",
    "Visdom.C86_replace_back_partial"
   ],
   "note": "Loading again (C86_load, C86_load_answers, all texts) and content tags in full. set_html with own html: same places, same html, and the same answers to common selectors; it fails when the element does not allow its own children (C86_fails_forbidden) and for selectors that look at the root of a node (C86_fails_root). C86_replace_back_partial: replacing a node with the fragment its own outer_html is loaded as leaves a mirror image of the document."
  },
  {
   "property": "C87",
   "status": "partial",
   "theorems": [
    "Visdom.C87_text",
    "Visdom.C87_join",
    "Visdom.C87_edit",
    "Visdom.C87_wrap",
    "Visdom.C87_set",
    "Visdom.C87_remove",
    "Visdom.C87_inside_partial",
    "Visdom.C87_taken",
    "Visdom.C87_set_text",
    "Visdom.C87_clone",
    "Visdom.C87_contains",
    "Visdom.C87_root",
    "Visdom.C87_each",
    "Visdom.C87_each_cases",
    "Visdom.C87_fails_root",
    "Visdom.C87_beside_partial",
    "Visdom.C87_replace_partial",
    "Visdom.C87_set_html_partial",
    "Visdom.C87_move_inside_partial",
    "Visdom.C87_move_beside_partial"
   ],
   "note": "Proved for elements (C87_text, C87_join, C87_edit with the instances C87_wrap and C87_set, C87_remove, C87_taken, C87_set_text, C87_clone, C87_contains, C87_each); insertions inside and beside, of new nodes and of nodes moved within the document, replacements and set_html: C87_inside_partial, C87_beside_partial, C87_move_inside_partial, C87_move_beside_partial, C87_replace_partial, C87_set_html_partial (under the conditions of the same operations in C72). False for the root of a document or fragment, whose text is its markup (C87_root, C87_fails_root). What a single node says is a parameter, as for C72; comments are assumed to say nothing where joins are compared."
  },
  {
   "property": "C88",
   "status": "partial",
   "theorems": [
    "Visdom.C88_typed",
    "Visdom.C88_node_type",
    "Visdom.C88_cloned",
    "Visdom.C88_program",
    "Visdom.C88_parent",
    "Visdom.C88_kept",
    "Visdom.C88_copied",
    "Visdom.C88_child_nodes",
    "Visdom.C88_loops",
    "Visdom.C88_positions",
    "Visdom.C88_texts",
    "Visdom.C88_filter_by",
    "Visdom.C88_fails_content"
   ],
   "note": "All proved but the last sentence: a content tag in a set of texts is an element by its kind, and Texts::filter_by panics on it (C88_fails_content, as in C52). The loops panic exactly where the lists of the model do (stale positions)."
  },
  {
   "property": "C89",
   "status": "partial",
   "theorems": [
    "Visdom.C89_chars",
    "Visdom.C89_same",
    "Visdom.C89_append",
    "Visdom.C89_set_text",
    "Visdom.C89_comment",
    "Visdom.C89_root",
    "Visdom.C89_fails_comment"
   ],
   "note": "Proved for elements, texts and content tags. The last sentence does not hold: of a comment text_chars is the markup with its brackets and text is what a comment says (C89_comment, witness C89_fails_comment); C89_root covers documents and fragments."
  },
  {
   "property": "C90",
   "status": "partial",
   "theorems": [
    "Visdom.C90_set_html_partial",
    "Visdom.C90_text_partial",
    "Visdom.C90_fails_repeated",
    "Visdom.C90_twice"
   ],
   "note": "C90_set_html_partial and C90_text_partial hold for every list of distinct texts in elements that are not content tags, whose markup the parser turns into a list of nodes. A text listed twice (texts() of nested sets lists them twice, C42_fails_nested) breaks the claim: C90_fails_repeated. Texts at the top of a document panic (C41_fails_root) and empty markup empties the parent (C41_fails_empty). C90_twice: what the second call on the same text does, for every text."
  },
  {
   "property": "C91",
   "status": "partial",
   "theorems": [
    "Visdom.C91_wrap_partial",
    "Visdom.C91_unwrap_partial",
    "Visdom.C91_html_partial",
    "Visdom.C91_replace_first",
    "Visdom.C91_fails_replace",
    "Visdom.C91_wrap_all_partial",
    "Visdom.C91_html_all_partial"
   ],
   "note": "insert_before and append, and the way back with replace_with; any list of siblings (C91_wrap_all_partial), the html of neighbouring ones (C91_html_all_partial); replace_with first loses both elements (C91_replace_first, for every element; C91_fails_replace)"
  },
  {
   "property": "C92",
   "status": "partial",
   "theorems": [
    "Visdom.C92_removed",
    "Visdom.C92_inside_partial",
    "Visdom.C92_emptied",
    "Visdom.C92_replaced",
    "Visdom.C92_fails",
    "Visdom.C92_above",
    "Visdom.C92_closest"
   ],
   "note": "the inside of the removed element; its own neighbours are wrong for every element, C92_removed says exactly how (C92_fails); C92_emptied and C92_replaced: the same for the children of emptied elements, whose siblings always panic, and for replaced elements. C92_above: parent and parents of every removed element are what they were before. C92_closest: so is closest, for lists of compounds of names, classes and attributes."
  },
  {
   "property": "C93",
   "status": "partial",
   "theorems": [
    "Visdom.C93_beside_partial",
    "Visdom.C93_inside_partial",
    "Visdom.C93_exchange_partial",
    "Visdom.C93_found_partial",
    "Visdom.C93_fails_id"
   ],
   "note": "`C93_beside_partial`, `C93_inside_partial`: html; `C93_exchange_partial`: html, places and all answers; `C93_found_partial`: searches. Missing: that rphtml's copy is a `CopyMade` is a hypothesis (rphtml is outside the model); searches with positions, siblings or ids; ids fail (`C93_fails_id`)."
  },
  {
   "property": "C94",
   "status": "proved",
   "theorems": [
    "Visdom.C94_way",
    "Visdom.C94_reach"
   ],
   "note": "`C94_way` for the parsed selector (exact, also when there is no such way), `C94_reach` for the text; `wayDown_unique`: a way leads to one element only. Well formed trees, tables of attributes in step (`Metas`), less than 2^63 children (`Small`)."
  },
  {
   "property": "C95",
   "status": "proved",
   "theorems": [
    "Visdom.C95_children",
    "Visdom.C95_next",
    "Visdom.C95_prev",
    "Visdom.C95_parent",
    "Visdom.C95_next_all",
    "Visdom.C95_prev_all",
    "Visdom.C95_closest"
   ],
   "note": "Calls with an empty selector; C26 takes the same lists through a selector. parents and siblings, which sort, are in C25."
  },
  {
   "property": "C96",
   "status": "proved",
   "theorems": [
    "Visdom.C96_add",
    "Visdom.C96_find_far",
    "Visdom.C96_find",
    "Visdom.C96_find_common"
   ],
   "note": "C96_add, C96_find_far, C96_find assume only that each selector by itself answers in document order; C96_find_common: for common selectors with descendant combinators without that assumption."
  },
  {
   "property": "C97",
   "status": "partial",
   "theorems": [
    "Visdom.C97_find",
    "Visdom.C97_find_root",
    "Visdom.C97_filter",
    "Visdom.C97_has",
    "Visdom.C97_list_behind",
    "Visdom.C97_list_before",
    "Visdom.C97_fails_list"
   ],
   "note": "C97_find, C97_find_root, C97_filter, C97_has; the list with the wider selector first: C97_list_behind. With the narrower one first the list loses everything behind its last element, for all such selectors, sets and trees (C97_list_before; C97_fails_list)."
  },
  {
   "property": "C98",
   "status": "proved",
   "theorems": [
    "Visdom.C98_each",
    "Visdom.C98_once",
    "Visdom.C98_html",
    "Visdom.C98_again",
    "Visdom.C98_children",
    "Visdom.C98_neighbours"
   ],
   "note": "Children one by one (C98_each), the set in one call (C98_once: prepend keeps the order, append reverses it), the html (C98_html), twice (C98_again), what the children method then answers (C98_children) and what next, next_all and prev_all answer (C98_neighbours). Texts cannot be moved by these methods and stay in front (behind, for prepend)."
  },
  {
   "property": "C99",
   "status": "partial",
   "theorems": [
    "Visdom.C99_exchange",
    "Visdom.C99_index",
    "Visdom.C99_back_partial",
    "Visdom.C99_mark_again",
    "Visdom.C99_html",
    "Visdom.C99_fails_mark"
   ],
   "note": "C99_exchange (all lists of children, parents, nodes above), C99_index, C99_html (one parent), C99_back_partial (again with another new element). The same new element cannot be used again (C99_mark_again, for every exchange; C99_fails_mark): it was taken out with replace_with and still counts as a child."
  },
  {
   "property": "C100",
   "status": "proved",
   "theorems": [
    "Visdom.C100_dissolve",
    "Visdom.C100_html",
    "Visdom.C100_unwrap"
   ],
   "note": "The order of the calls is children(x) inserted after x, then x removed. C100_dissolve also covers children that are not elements: they stay in the removed element. C100_html is for elements all of whose children are elements, and whose content is not written raw. C100_unwrap undoes C91_wrap_all_partial for neighbouring elements."
  },
  {
   "property": "C101",
   "status": "proved",
   "theorems": [
    "Visdom.C101_split",
    "Visdom.C101_join",
    "Visdom.C101_back",
    "Visdom.C101_html",
    "Visdom.C101_rename"
   ],
   "note": "C101_split (lists), C101_html (html of everything above, w empty), C101_back (the way back), C101_join, C101_rename (lists for all elements; html when all children of x are elements, because children() gives elements only and texts stay in the removed x). Elements whose content is written raw are left out of the html statements."
  },
  {
   "property": "C102",
   "status": "proved",
   "theorems": [
    "Visdom.C102_wrap",
    "Visdom.C102_dissolve",
    "Visdom.C102_split",
    "Visdom.C102_rename",
    "Visdom.C102_fails_texts"
   ],
   "note": "C102_wrap, C102_dissolve, C102_split, C102_rename, for the parameters Voice and Ext of the model of text(); elements whose content is written raw (content tags) are left out as the changed elements and as their parent. C102_fails_texts shows that the condition about texts is needed."
  },
  {
   "property": "C103",
   "status": "proved",
   "theorems": [
    "Visdom.C103_melted",
    "Visdom.C103_dissolve",
    "Visdom.C103_wrap",
    "Visdom.C103_rename",
    "Visdom.C103_split",
    "Visdom.C103_fails_way"
   ],
   "note": "The condition is needed: C103_fails_way (after the `ul` has gone, `ul li` finds nothing and `div > li` finds the items)."
  },
  {
   "property": "C104",
   "status": "proved",
   "theorems": [
    "Visdom.C104_shuffled",
    "Visdom.C104_arranged",
    "Visdom.C104_sorted",
    "Visdom.C104_fails_place",
    "Visdom.C104_exchanged"
   ],
   "note": "C104_arranged, C104_sorted; C104_exchanged for two children that change places; C104_shuffled for any two such trees; C104_fails_place: positions and neighbours are excluded for a reason."
  },
  {
   "property": "C105",
   "status": "proved",
   "theorems": [
    "Visdom.C105_exchanged",
    "Visdom.C105_history",
    "Visdom.C105_count",
    "Visdom.C105_fails_two"
   ],
   "note": "C105_history, C105_count; C105_exchanged for two elements that change places; C105_fails_two: two compounds are excluded for a reason."
  },
  {
   "property": "C106",
   "status": "proved",
   "theorems": [
    "Visdom.C106_mark",
    "Visdom.C106_mark_class",
    "Visdom.C106_unmark",
    "Visdom.C106_fails_capital"
   ],
   "note": "C106_mark, C106_mark_class, C106_unmark; values with at most one kind of quote; C106_fails_capital: why the name has to be in small letters to be taken off."
  },
  {
   "property": "C107",
   "status": "proved",
   "theorems": [
    "Visdom.C107_states",
    "Visdom.C107_history",
    "Visdom.C107_fails_two",
    "Visdom.C107_everywhere",
    "Visdom.C107_moves"
   ],
   "note": "C107_history, C107_states for any two states; C107_everywhere, C107_moves: for removed elements and all other nodes too, panics included; C107_fails_two: two compounds are excluded for a reason."
  },
  {
   "property": "C108",
   "status": "proved",
   "theorems": [
    "Visdom.C108_beside",
    "Visdom.C108_inside"
   ],
   "note": "C108_beside for before and after, C108_inside for append and prepend, both for a set with one element and one target. For several elements at once the order is that of C36."
  },
  {
   "property": "C109",
   "status": "proved",
   "theorems": [
    "Visdom.C109_children",
    "Visdom.C109_steps",
    "Visdom.C109_fails_twice"
   ],
   "note": "C109_children and C109_steps, for starting sets with one element. C109_fails_twice: the nodes removed have to be different (the disagreement of C34)."
  },
  {
   "property": "C110",
   "status": "proved",
   "theorems": [
    "Visdom.C110_replaced"
   ],
   "note": "C110_replaced, for sets with one element each. For several elements see C39."
  }
 ]
}