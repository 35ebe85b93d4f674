# A Lean 4 model of visdom's DOM, selector engine and mutations

`/repo` is `fefit/visdom` (Rust). It was read as text only; nothing was built or run.
This file says what is modelled, how each property of `properties.jsonl` is proved, what is trusted,
and where the code disagrees with the property.

## 1. Layout

| directory | content |
|---|---|
| `lean/Verif/Model/` | the model, one definition per Rust function, each citing file and lines |
| `lean/Verif/Spec/` | small specifications, written without the model's helpers |
| `lean/Verif/Proofs/` | auxiliary lemmas |
| `lean/Verif/Props/` | the property theorems, each with a concrete instance beside it |
| `lean/Verif/Conform/` | the repository's own tests run on the model; tests, not proofs, and no theorem uses them |
| `seeded/LOG.jsonl` | wrong-program experiments: an edit of the model, and which theorems noticed |

## 2. Modelling decisions

* **Characters and strings**: a Rust `&str`/`Vec<char>` is a `List Char`.
* **Panics** are values: a function that can panic returns `Except Panic α`. Arithmetic overflow and
  underflow count as panics (the behaviour of debug/test builds); the release behaviour is stated where
  it matters.
* **`&mut`** becomes returning the new value; the DOM is an explicit heap.
* **DOM**: `Heap` maps a node identifier to a record (kind, tag name, attributes, content, optional child
  list, optional parent, index), exactly the fields of rphtml's `Node` that `src/lib.rs` reads and writes.
  `Rc` pointer equality (`is`) is equality of identifiers. Weak pointers are read as live except in C70 (no memory
  management). Because links are explicit, stale parents, stale indexes and sharing are expressible.
* **Recursion through the heap** uses fuel; theorems are about well formed trees (`TreeWF`), for which the
  fuel is proved sufficient.
* **Selector engine**: like the Rust code, the engine is generic in a `Matcher` record holding optional
  `one`/`all`/`specified` handles; every rule builds a `Matcher`.
* **What selectors rely on** is asked for one by one: `Metas` (consistent attribute tables) always, `Roots` (every node
  knows its root) only for `filter` and nested selectors of several compounds, `IdOk` (the id leads into the tree) only
  for `#id`.
* **External code** (rphtml parser/renderer, entity tables, `regex` crate) is not available in the sandbox.
  The HTML parser's result and the entity encoder are parameters. The fixed regular expressions of the selector
  patterns are syntax trees (`Model/Pattern.lean`) run by a backtracking matcher (`Model/Regex.lean`) with the
  leftmost-first semantics of the `regex` crate; the Unicode classes `\s` and `\d` are tables written out in
  `Model/Regex.lean` (trusted); the specifications write both out again (`Spec/White.lean`, `Spec/Digits.lean`) and
  `wsTable_iff`, `reDigit_iff` prove the two equal.
* **Parser**: `Model/Parser.lean` follows `from_str` round by round over the table of rules; the closures a rule
  captures are the data `Part`. A selector nested in `:not`/`:has` stays text and is parsed when its matcher is
  applied, as in the code. `Model/Methods.lean` has the methods called with a text; they return the result and the
  number of reports to the document's error handler. A report made while a matcher parses a nested text is not counted.
* **Positions**: the rules look positions up by membership where the code calls `binary_search`. `Model/Search.lean` has the two
  loops the standard library has used, and `C01_search` shows that they find exactly the selected positions also in the unsorted
  lists of `BadNth`. Other implementations of `binary_search` are not covered there.
* **Locks**: `Model/Locks.lean` has two views. `LockCall`/`afterCalls` follow one mutex state: a panic while a guard is
  held poisons it, a later `lock().unwrap()` panics. `ConcCall.acts` lists the acquisitions and releases of each call;
  `Spec/Conc.lean` interleaves the threads arbitrarily. Left out: the `Once` inside each `lazy_static` other than the
  splitter's, and poisoning of the pattern and regular expression tables, which are only written during start-up.

* **Mutations**: `Model/Mutate.lean` follows `src/lib.rs` on the heap: parent and index fields are kept where the code keeps
  them, so removed nodes stay stale. External code is the record `Ext`: the parse of a text into a fresh fragment, the test
  whether a tag list may contain a node, the content tags, the entity encoder, owner documents. `ParseOk` is the only
  contract on the parser: it adds nodes forming a tree with right links and leaves the old nodes alone.
  `Spec/Forest.lean` has the invariant `HeapOk h D`: links are right except in the used up fragments `D`.
  `History` restricts the operations to nodes that are in place.
* **Rendering**: `Node::build` of rphtml is modelled as a walk (`Model/Html.lean`); the strings for the start tag, the end tag, the content
  of a content tag and a node that is not an element are parameters (`Render`). Assumed: they depend on the kind, name, attributes and
  content of the node, and for texts on whether they stand in a content tag, on nothing else. `text` is the same walk without the tags
  (`Model/TextValue.lean`; `Voice` holds what single nodes say); the second argument of `build` is taken to mean "text only".
* **Cloning**: `clone_node` of rphtml is the parameter `Copier`; `World.Ok` (`Spec/Apart.lean`) is its contract: only new nodes
  are added, linked among themselves, and the copy of a finite subtree looks like the original.
* **Reports**: `Model/Reports.lean` repeats the mutations that can be refused with the calls of the error handlers they make.
  `Handlers` gives the handler of each root whose document is alive. A document stays alive in the model; the document that
  `set_html` parses and drops has no handler. What a handler does is not modelled.

## 3. Trusted base

* Lean 4.33.0's kernel; axioms `propext`, `Classical.choice`, `Quot.sound` at most. No own axioms, no `sorry`,
  no `native_decide`, no `bv_decide`.
* The reading of `/repo` into the model (each definition cites its source lines). It is tested: `lean/Verif/Conform/` replays the tests of
  `/repo/tests` and the unit tests of `/repo/src` on the model (`#guard`, evaluated at build time). All assertions of `selector.rs` (173) and
  `method.rs` (172) and those of `attr.rs`, `content.rs`, `insertion.rs`, `mutation.rs`, `trait.rs`, `error.rs` hold on the model,
  and so do those of the examples in the documentation comments of the crate (about 200).
  `Conform/Loader.lean` stands in for rphtml there (a small HTML reader, its own). Left out: broken HTML, `Debug` output, `source_code`,
  the attribute `=123`; the list of 3000 items in `method.rs` is cut to 60.
* The parameters standing for external code, listed in section 2.
* Memory: `Model/Alive.lean` says which nodes are freed given what the program holds, and what is then seen through weak
  pointers (C70); all other theorems are about programs for which C70's condition holds.
* Not modelled: `Rc` counts, HTML parsing, the strings rphtml writes for single nodes, error message texts,
  hashing, performance, the `insertion` of new nodes into rphtml's id cache.

## 4. Plan per property

| id | modelled by | proof |
|---|---|---|
| C01, C02 | `divideIsize`, `getAllowedIndexs` over `Int` with the 64 bit cast written out | the code is wrong for some inputs: negation by witness, and an exact description of the inputs where it is right |
| C03 | `getClassList`, `classListToString` | induction over characters; round trip |
| C04 C05 C06 | class methods over the attribute string | list lemmas; C05, C06 fail for unsorted or repeated names: witness + `_partial`; the order condition is exact (`C05_exact`, `C06_exact`) |
| C07 C08 C09 | attribute store (list + lower-case name map) | invariant over all histories; C08 fails for non-lower-case names, C07 for quotes, C09 for overwritten attributes: witness + `_partial` |
| C10 C11 | attribute modes, substring search | equality with prefix/suffix/infix/word specifications |
| C12 C13 C14 | index paths, `compareIndexs`, `relationOf`, sort, dedup | paths in a well formed tree are injective; lexicographic order = document order |
| C15 | `add` with its binary search | the code loses and misplaces elements: witnesses; correctness under a necessary and sufficient condition |
| C16 | `filterInHandle` | induction with a moving start index |
| C17 C18 C19 C20 C21 | `selectByRule`, `select`, `hasEle`, `findSelector` | step lemmas per combinator, composed by induction over the selector; counterexamples for order, duplicates and panics |
| C22 C23 C24 | `filterTypeHandle`, `has` | from the `hasEle` lemma |
| C25 C26 C27 C45 | navigation, `closest`, `*_until` | step lemmas; counterexamples for `children("#id")` and `closest("div .a")` |
| C28 | pseudo-class handles | coherence of every handle with a positional specification |
| C29 C30 C31 C32 C47 | parser, patterns, rule templates | round trip by induction over the syntax tree; panics by witness and for every text breaking off inside a simple selector (`Spec/Open.lean`, `C30_open`, `C30_typing_exact`); poisoning as a state machine |
| C33 - C41 | heap mutations | invariant `TreeWF` preserved by operations; effect of each operation on child lists; counterexamples for stale nodes, order, fragments, `replace_with`; for C34 - C37, C40, C41 the exact conditions (`Props/RemoveExact`, `Props/MutExact`) |
| C42 C48 | `textsByRec`, `formValue` | structural induction |
| C43 C44 | list methods | list lemmas; panics of `last`/`slice` by witness |
| C46 | lock acquisition traces | lock order implies no deadlock in every reachable state of the interleaving semantics |
| C49 C50 C51 | `pseudo_checked`, `pseudo_root`, `pseudo_empty`, the alias rules | from C22 with the decision procedure of each rule |
| C52 C53 | `Texts::filter_by`, `Texts::remove` (`Model/Texts.lean`) | induction on the set |
| C54 | histories of mutations followed by `find`/`filter` | the invariants of C33 give what C17 and C22 need; stale root links by witness |
| C55 C56 | attribute methods of sets (`Model/SetAttrs.lean`) | the loop with a postcondition; C17 and C22 on the changed document |
| C57 | `get_attributes` | the name at each position; histories by induction |
| C58 | sibling methods of one element; `childrenQ`, `parentQ`, `prevQ`, `nextQ`, `prevAllQ`, `nextAllQ`, `siblingsQ` | splitting the child list at the index |
| C59 | `Document` (`Model/Document.lean`) | C17, C18, C19 and C29 for a tag name |
| C60 | `set_text`, `empty` on sets | the loop with a postcondition for each element; C22 for `:empty` |
| C61 | `IAttrValue`, `IFormValue` (`Model/Values.lean`) | induction on the characters; the tokens of `Spec/Strings.lean` |
| C62 | `head_combinator`, `select_with_comb`, `siblings` (`Model/Engine.lean`, `Model/Query.lean`) | first step by the method's relation, the rest by the lemmas of `find` |
| C63 | all mutating methods, `Clone for Elements` (`Model/Copy.lean`) | no call writes outside the nodes linked with its arguments; meaning of selectors depends on the tree alone (`Proofs/Agree.lean`) |
| C64 | find, filter, has and the navigation methods (`Props/Laws.lean`) | two searches, find against filter, unions, has against find, round trips of the navigation methods |
| C65 | `contains`, `has_ele` | relation of the combinator, by `hasRelated_ok` |
| C66 | the loop of `from_str`, all rules and patterns, `parse_until` | grammar `Says` (Spec/Accept.lean) tying parts to texts; words of the patterns with captures (`LangC`); invariant of the loop |
| C67 | `Elements::set_html`, `set_html`, `remove_not_allowed_nodes` | shapes of subtrees (Spec/Shape.lean) without node numbers; frame for the rest of the heap; the parser is a parameter |
| C68 | `Dom::halt`, `validate_dom_change`, `insert`, `set_text`, `load_options_catch`, `append_to` and its kin | model with a log of reports, refinement to the model without; root links never change (invariant over events) |
| C69 | every mutating method of `Call` (`Spec/Apart.lean`) | frame conditions per primitive write, composed over the calls; no invariant of the heap needed |
| C70 | sets after something was dropped | memory model: reachability through child lists, weak links seen as none when freed; exact condition, positive cases by the tree invariant, witnesses |
| C71 | `children`, `next`, `prev`, `has`, `has_in`, `filter`, `not`, `is`, `is_all`, `find`, `add`, `parent`, `siblings` | `Splits`: the result for two sets put together is the two results put together; no assumption about trees |
| C72 | `html`, `htmls`, `outer_html`, `outer_htmls`, after every kind of mutation | walk of rphtml's `build` with the strings of single nodes as parameters; inductive specification `HtmlOf`; depth bound by acyclicity; context lemma: one place changes in the string of every ancestor |
| C73 | checked arithmetic (`Model/Checked.lean`) | refinement: every intermediate value is bounded by the inputs |
| C74 | `owner_document`, `document` (`Model/Alive.lean`) | invariant: no event changes the link to the root of an existing node |
| C75 | two mutations in a row: `append`, `prepend`, `insert_after`, `insert_before`, `remove`, `empty`, `replace_with` | specification `Stands` of a place; a place determines the lists of children; universal failure theorems for removed and replaced elements |
| C76 | all rules and handles, the parser | relation generated by the laws of CSS, independent of documents; transport along the exact theorems for `find`, `filter`, `has`, `closest` |
| C77 | `set_attribute`, `remove_attribute`, `get_attributes` | the list of attributes with a key against the table of names; invariant `InStep` over all histories, exact condition for removals |
| C78 | `find` before and after histories, `remove` | selectors of own tests (`Own`), touched nodes (`Touched`), the old answer less what is within the removed elements |
| C79 | the empty text in `select_with_comb`, `trigger_method`, `siblings`, `closest`, the until methods, `:not()` | the relations `NextSib`, `LaterSib`, `Sib`, `Below`, `Walk` without condition; `White` texts |
| C80 | `remove_child`, `insert_adjacent`, `replace_with`, `set_text`, `set_html`, over histories | `Touched`, `TouchedAny`, `Unmoved` (Spec/Again), `Before` |
| C81 | insertAdjacent, removeAll, changeAll, setAttribute, removeAttribute | `put` (Spec/Commute.lean): the list of children after a node is put at a place; both orders of two calls give the same children, links, data and HTML |
| C82 | findText, filterText, notText, isText, isAllText, hasText, closestText | `Mirror`, `EnvMirror` (Spec/Mirror.lean): two copies of a tree, up to the identities of the nodes; answers correspond under the renaming |
| C83 | all of the query engine: parser, rules, selection, navigation, sets, document accessors | a relation between two states (`Copies`) and equality of answers up to the copying |
| C84 | all of the query engine | node kinds and membership in the trees; programs as an inductive closure (`Obtained`) |
| C85 | all of the query engine and the parser | `diverge` (a bound that ran out) is never the result |
| C86 | `html`, `set_html`, `load` (`Model/Html.lean`, `Model/Mutate.lean`) | trees of one shape are mirror images by the nodes at the same place (`Spec/Place.lean`, `Proofs/Place.lean`); C82 and C83 for the answers; `Proofs/Graft.lean` shows that the hypotheses about the parser can be met for any trees |
| C87 | `text`, `texts(0)`, `Texts::for_each`, `prepend_text`, `append_text`, `set_text`, `Texts::remove`, `:contains` | walk of rphtml's `build` with the tags left out; inductive specification `Spoken`; the texts collected by `texts` are matched with the parts of the string |
| C88 | `node_type`, `typed`, `into_element`, `into_text`, `cloned`, `copied`, the loops of `element.rs` (`Model/Kinds.lean`) | kinds and positions (`Spec/Kinds.lean`); the loops with all their conversions equal the lists used elsewhere (refinement) |
| C89 | `lib.rs` text_chars, text_contents, append_text, prepend_text, set_text | `stored`, `readOut`, `Verbatim`, `Decodes` (Spec/Chars.lean): the stored characters, and what rphtml promises with and without decoding |
| C90 | `lib.rs` set_html, text_contents; `texts.rs` for_each; the example `lib.rs:1196-1202` | `TextsReplaced`, `SpokenWith`, `Shape.says` (Spec/TextsHtml.lean): the children with every text replaced, and what is said then |
| C91 | `insert_before`, `append`, `replace_with` in a row | lists of children and HTML of every node above; the way back; universal failure theorem for the other order |
| C92 | `remove`, then `parent`, `prev`, `next`, `siblings` | the answers before the removal; exact wrong answers for every position |
| C93 | `copied`, `insert_*`, `append`, `replace_with`, `find` | Spec/CopyMade, Spec/Place, the HTML and the answers before |
| C94 | parser, `find`, `:nth-child`, `>` | Spec/Address: the way down by numbers, its text |
| C95 | childrenQ, nextQ, prevQ, parentQ, nextAllQ, prevAllQ | `FirstOfParent` (Spec/Walk), `NextSib` (Spec/Select), child lists |
| C96 | addElems, find | `AsFar` (Spec/Reach), `DocSorted`, `Sel` |
| C97 | `find`, `filter`, `not`, `is`, `has` with texts, `add` (`Model/Query.lean`) | the relation `NarrowCx` between selectors, by form alone (`Spec/Narrow.lean`); `Sublist` between the answers |
| C98 | `insertAll`, `insertLoop`, `innerHtml`, `childrenQ`, `nextAllQ`, `prevAllQ`, `nextQ` | list permutations and `Arranges`, `HtmlOf` |
| C99 | `insertAll`, `replaceAll`, `innerHtml` | `other`, the exchange of two numbers, mapped over the lists of children; `HtmlOf` |
| C100 | `children`, `insert_after`/`after` (`insertAll .afterEnd`), `remove` (`removeAll`) | lists of children before and after; `HtmlOf`, `InnerOf` |
| C101 | `insertAll`, `appendEach`, `children`, `removeAll`, `innerHtml` | lists of children before and after; `HtmlOf`, `InnerOf` |
| C102 | `insertAll`, `appendEach`, `removeAll`, `textContents`, `textJoin` | the texts before and after; `Within` for the place |
| C103 | `find`, `insertAll`, `appendEach`, `removeAll` | `Sel`, `cmpdSat`; the two answers, one without the element |
| C104 | `find`, `appendEach`, `insertAll` | `Sel`, `DocSorted`, `Together`; permutations of lists |
| C105 | `find`, `runAll` | `Within` (who is in the document), `cmpdSat`, `DocSorted` |
| C106 | `setAttr`, `addClass`, `removeAttr`, `find`, `runAll` | `viewOf`, `ClassList`, `Within`, `DocSorted`, `History` |
| C107 | `filterQ`, `notQ`, `isQ`, `isAllQ`, `runAll` | equality of the answers in the two states; `Elems`, `History` |
| C108 | `insertAll`, `nextQ`, `prevQ`, `nextAllQ`, `prevAllQ`, `childrenQ`, `parentQ` | lists of the children before the call; `Insertable` |
| C109 | `removeAll`, `childrenQ`, `nextQ`, `prevQ`, `nextAllQ`, `prevAllQ` | the answers before the call, filtered; `Attached` |
| C110 | `replaceAll`, `nextQ`, `prevQ`, `nextAllQ`, `prevAllQ`, `parentQ` | the answers before the call, filtered; `Usable` |





## 5. Where the code disagrees with a property

Each entry has a theorem with a concrete witness (`CNN_fails*`), and the property is proved under an explicit
condition (`_partial`).

| id | disagreement |
|---|---|
| C01 | `get_allowed_indexs` misses or invents positions for some offsets (class `BadNth`), e.g. `3n-1`, `2n+3` |
| C02 | `divide_isize` rounds towards zero when the truncated quotient is 0 |
| C04 | a name given twice to `add_class` is stored twice when the element has no class attribute |
| C05 C06 | `remove_class`/`toggle_class` walk two lists in step: names out of order or repeated are missed, or the call panics |
| C07 C09 | values with both kinds of quote; an overwritten attribute keeps its old quote character |
| C08 | `remove_attribute` with a capital letter leaves the attribute in the name map |
| C10 | `[a=""]`, `[a\|=""]` match elements without `a`; `[a!=""]` does not |
| C15 | `add` loses elements when the second set contains the whole first set and goes beyond its last element; it misplaces them when the second set contains the last but not all of a longer first set, unless an element of its own lies late enough (exact condition `UnionRight`) |
| C17 | `#id` after `>`/`+`/`~` can select outside the relation; see `C17_fails_*` for the rest |
| C18 | `find` can return elements out of document order or twice after `~`/`+` |
| C19 | `:last-child` underflows on an element without child nodes; `unique_parents` can reach `unreachable!` |
| C20 | the union goes through `add`, so it inherits C15 |
| C21 | starting from the most specific compound changes the result when that compound is not decided element by element |
| C22 C23 C27 | `filter`, `not`, `is`, `is_all` and `closest` of a class or attribute test panic on a set that holds the document root (as the result of `Vis::load` does), because the root has no attribute data; a name test answers, and `*` keeps the root |
| C22 | `filter("> p")` ignores the leading combinator; a list of selectors is applied one after the other to a shrinking set with wrong indexes |
| C23 | `is_all` on an empty set is false though `filter` keeps everything |
| C25 | `next_all`/`prev_all` use only the first/last of the siblings in the set; `siblings` of a set with a repetition contains the element itself |
| C26 | `children("#x")` returns a descendant that is not a child; `children("div > p")` is `find("> div > p")`, not the children that match |
| C27 C45 | for a selector rearranged to start at its heaviest compound, `closest` and the until methods ignore the part before it; `closest` keeps repetitions when every element matches itself; the until methods walk only from the first (last) of siblings |
| C28 | inherits C01 |
| C29 | inside a nested selector nothing may follow a nested `:not`/`:has`: `:not(:has(a) b)` is refused |
| C30 | a text ending inside a simple selector (`.`, `[a`, `:not(p`) indexes past its end; a plain number in `:nth-*` that does not fit `isize`, or with non-ASCII digits, panics |
| C31 | these panics happen while the rule lock is held, so every later parse on any thread panics; the walks without a selector (`children("")`, `parent("")`, …) panic for ever too, unless one of them ran before |
| C32 | `find`, `closest`, `siblings` and the until methods panic on an empty set when the text is refused |
| C33 | a removed node keeps its parent and index, and a fragment keeps its child list after its nodes were moved out, so later operations with them corrupt the links |
| C34 | removing an element twice removes its next sibling, or panics |
| C35 | `append`/`prepend` of a node the tag rules refuse, and `before`/`after` at a target without parent, take the node out of its place and lose it |
| C36 | `append` and `before` of several elements reverse their order |
| C37 | `replace_with` is not validated: replacing by an ancestor makes a cycle or a double borrow; a fragment used twice as well: an element can become its own parent without a report, then `remove` and `replace_with` panic and every insertion at it loops for ever |
| C38 | a fragment inserted into several targets has its nodes in all of them |
| C39 | replacing by several nodes: each node given replaces the one put before it, so only the first of them stays and the rest is lost |
| C40 | `set_text("")` on a text node is ignored; `set_text` on a text node is not encoded; `append_text`/`prepend_text` on a text without content panic |
| C41 | `set_html("")` on a text node clears the whole child list of its parent; on a text directly under the root it panics |
| C42 | `texts` of a set with nested elements repeats the texts of the inner ones |
| C43 | `last` on an empty set underflows; `slice` panics for reversed ranges and excluded starts |
| C47 | a parameter in three or more hashes underflows when its first `#` (or its end) comes too early: `{regexp###a###}` |
| C48 | the default of a `select` may be a disabled option and is not looked for inside `optgroup`; an option without `value` attribute counts as "" rather than its text; more than 255 nested elements overflow a counter |
| C49 | a selected option in an `optgroup` before the first direct option is ignored |
| C52 | `filter_by` panics when it keeps a content tag (`into_text` gives `None`) |
| C53 | `remove` on a set with a repeated text removes the next sibling, or panics |
| C54 | nodes inserted from a fragment keep the root link of the fragment: `filter("div b")`, `is`, `not` and `has` look for ancestors below the old root and miss them; `#id` is looked up in the old document |
| C55 C56 | a set containing the document root panics in `attr`, `has_attr` and the class methods, while `set_attr` and `remove_attr` pass over it; otherwise inherits C04-C08 |
| C57 | an attribute removed under a name with a capital letter is still listed (C08) |
| C58 | outside the statement: a removed element keeps its parent and index, so its siblings are wrong or the call panics |
| C61 | `to_list` trims Unicode white space first, so a class beginning with a no-break space is listed without it; iterating over a single form value gives nothing |
| C62 | `siblings` with a selector whose heaviest compound is not the first looks below the member itself: it finds nothing, or panics on the reversed combinator |
| C63 | a fragment root keeps its list after its nodes were inserted; inserting it a second time changes the first document through a handle that no longer belongs to it |
| C65 | `contains` panics for `Parent`, `ParentAll`, `Prev`, `PrevAll` and `Siblings` (`Combinator::reverse` has no case for them), although the public type `Combinator` offers them |
| C68 | a node moved to another document reports its errors to the handler of the document it came from; nodes made by `set_html` and `set_text` report to nobody (their root link is dead or missing) |
| C70 | a set does not hold its document: after `let items = Vis::load(html)?.find("p")` the parents of the items are freed; `items.find("b")` panics in `unreachable!` when two items have the same index, `is("div p")` is false, `parent("")` is empty; nodes appended from a temporary fragment lose their document likewise |
| C71 | elements of different documents are compared by their index paths: `add` drops an element at the same place of another document; `find` on a set of two clones of first children panics (`unreachable!` in `unique_parents`; that rphtml keeps the index of a copy or sets it to 0 is assumed, its source is not here), on other mixed sets it panics or misses what is below elements of the second document; `filter` and `not` with several compounds look for the root of the first element only; `parent`, `next_all`, `prev_all`, `siblings` keep one of two parents at the same place |
| C72 | a fragment that was inserted keeps its list of children: its `html` still shows the nodes that have left it |
| C55 | `toggle_class` walks the list as it is: an element listed twice is toggled twice, so nothing changes (`C55_fails_toggle_twice`). |
| C73 | `:nth-child(-9223372036854775808n+1)` and `:nth-child(n-9223372036854775807)` overflow (a panic in debug builds, wrapped numbers in release builds) |
| C74 | `document()` of a moved node is the document it came from (nothing if that was dropped); nodes made by `set_html` and `set_text` have no document |
| C75 | a removed (or replaced) element keeps its parent and index: `let b = doc.find("b"); b.remove(); div.append(&mut b)` removes whatever stands at the former index of `b` from the document, or panics (`outOfBounds`, `overflow`) if nothing stands there |
| C76 | after `>` on an element without children `:last-child` and `:nth-child(odd)` panic, `:nth-last-child(0n+1)` and `:not(:nth-child(even))` do not; `p > :last-child:first-child` panics, `p > :first-child:last-child` does not |
| C28 | the positional rules look at runs of siblings: on a set holding the same element twice in a row `filter(":first-child")` can answer an element that is not in the set; siblings out of order are lost or reordered |
| C64 | for selectors that the parser rearranges, `find("* :last-child")` may answer where `find("*").find(":last-child")` panics, and `find("> * p")` may panic where `find("> *").find("p")` answers (sets out of document order) |
| C77 | after `remove_attr("CLASS")` every later `add_class` or `set_attr("class", ..)` can be read back but does not appear in the HTML: the list entry has lost its key, the table still leads to it (lib.rs:745-747) |
| C78 | `find("div > div span").remove()` panics on nested `div`s: the search gives the same span twice (C18) and the second removal finds its index no longer valid (`C78_fails_twice`) |
| C79 | `children(" ")` reports an error and returns nothing, `siblings(" ")` returns all siblings: only `siblings` trims the text before it asks whether it is empty (elements.rs:1515-1520, `C79_fails_white`) |
| C82 | `filter("div b")` of an element that was inserted from a fragment is empty, though it is not in the same document loaded in one piece: root links of moved nodes are not updated (`C82_fails_root`) |
| C22 | on a set that holds the first child twice `filter(":nth-child(2)")` returns the second child, which is not in the set (`C22_fails_outside`) |
| C85 | `find` ends on every state that can be reached: a fragment that is inserted twice makes an element its own child (C37); `find` on it recurses without end, the stack overflows (`C85_fails_cycle`) |
| C86 | `set_html(html())` changes no answer: the new nodes keep the link to the root of the parsed text: `filter("div b")` no longer keeps the `b` (`C86_fails_root`); children that the element does not allow are lost (`C86_fails_forbidden`) |
| C87 | `text` of a document or fragment (the root) is not its text: `text_contents` asks rphtml for the text only when the node is an element or a comment, so the root answers with its whole markup, tags included: `C87_fails_root` |
| C88 | a content tag in a set of texts is converted by its kind in `filter_by`, which panics: `C88_fails_content` |
| C89 | `text_chars` asks for the text of elements only, `text_contents` of elements and comments: of a comment `text_chars` gives `<!--…-->` and `text` its text; the two differ where nothing is to be decoded |
| C90 | a text node that `set_html` has replaced keeps its parent and its index; a second call on it replaces the node that now stands there: the example in the documentation loops over `texts()`; for sets with nested members `texts()` lists a text twice, and the second call takes the first of the new nodes out again |
| C24 | `has` with `:nth-child(3n-1)` panics instead of choosing elements (`C24_fails_nth`). |
| C56 | `#x` asks rphtml's table of ids, which `set_attr` does not inform, so a changed id is not found (`C56_fails_id`). |
| C91 | `let mut w = x.replace_with(&mut w); w.append(&mut x)` takes both elements out of the document: `x` keeps its old parent and position, where `w` stands now (`C91_replace_first`) |
| C92 | a removed element keeps its parent; its next siblings are those behind the next node, and asking for them panics (`overflow`) if nothing stood behind it (`C92_removed`) |
| C93 | `#x` finds only the node in rphtml's id table, not the copy with the same id, although `div > p` finds both (`C93_fails_id`) |
| C92 | a removed element still has its parent and its ancestors: `parent()` and `parents()` answer as before the removal, for every element (`C92_above`) |
| C97 | `find("a, b")` finds all that `find("b")` finds: if `a` asks for more than `b`, it finds exactly the part up to the last element that `a` finds (`C97_list_before`): `find("div, *")` misses everything behind the last `div` |
| C99 | after the exchange of two elements by way of a mark (`before`, `before`, `replace_with`) the mark cannot be used for another exchange: it still counts as a child of its former parent, and inserting it takes the element that replaced it out of the document |
