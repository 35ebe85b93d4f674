import Verif.Conform.Changes
/-!
# The examples in the documentation comments of the crate, on the model

Tests, not proofs: the code blocks of the comments in `src/mesdoc/interface/elements.rs` and `src/lib.rs`, translated call by call.
-/
set_option linter.unusedVariables false
namespace Visdom.Conform
open Visdom Spec

/-- Stands for the state after a panic; the tests that change the document look for it at the end. -/
def noHeap : Heap := ⟨0, fun _ => {}⟩

/-- The example at `src/mesdoc/interface/elements.rs:195`. -/
def test_doc_elements_195 : List Bool :=
  let html' := r##"
    <ul>
      <li>item1</li>
      <li>item2</li>
      <li>item3</li>
    </ul>
  "##
  let h := load html'
  let doc := [0]
  let items := (find h doc "ul > li")
  let c1 := items.length == 3
  let items_texts := (forEach (fun (s : List String) i x => if i < 2 then (s ++ [text h [x]], true) else (s, false)) items 0 [])
  let c2 := items_texts.length == 2
  let c3 := (String.intercalate "," items_texts) == "item1,item2"
  [c1, c2, c3]

#guard test_doc_elements_195.all id

/-- The example at `src/mesdoc/interface/elements.rs:244`. -/
def test_doc_elements_244 : List Bool :=
  let html' := r##"
    <ul>
      <li>item1</li>
      <li>item2</li>
      <li>item3</li>
    </ul>
  "##
  let h := load html'
  let doc := [0]
  let items := (find h doc "ul > li")
  let c1 := items.length == 3
  let items_texts := (items.map fun x => text h [x])
  let c2 := items_texts.length == 3
  let c3 := (String.intercalate "," items_texts) == "item1,item2,item3"
  [c1, c2, c3]

#guard test_doc_elements_244.all id

/-- The example at `src/mesdoc/interface/elements.rs:279`. -/
def test_doc_elements_279 : List Bool :=
  let html' := r##"
    <ul>
      <li>item1</li>
      <li>item2</li>
      <li>item3</li>
    </ul>
  "##
  let h := load html'
  let doc := [0]
  let items := (find h doc "ul > li:contains('item3')")
  let c1 := items.length == 1
  [c1]

#guard test_doc_elements_279.all id

/-- The example at `src/mesdoc/interface/elements.rs:302`. -/
def test_doc_elements_302 : List Bool :=
  let html' := r##"
    <ul>
      <li>item1</li>
      <li>item2</li>
      <li>item3</li>
    </ul>
  "##
  let h := load html'
  let doc := [0]
  let items := (find h doc "ul > li:empty")
  let c1 := items.isEmpty
  let c2 := items.length == 0
  [c1, c2]

#guard test_doc_elements_302.all id

/-- The example at `src/mesdoc/interface/elements.rs:326`. -/
def test_doc_elements_326 : List Bool :=
  let html' := r##"
    <html>
      <head>
        <title>document</title>
      </head>
      <body>
        <ul>
          <li>item1</li>
          <li>item2</li>
          <li>item3</li>
        </ul>
      </body>
    </html>
  "##
  let h := load html'
  let root := [0]
  let c1 := got none (docTitle h (env h) (fun _ => true) 0) == some "document".toList
  [c1]

#guard test_doc_elements_326.all id

/-- The example at `src/mesdoc/interface/elements.rs:1066`. -/
def test_doc_elements_1066 : List Bool :=
  let html' := r##"
    <html>
      <head>
        <title>document</title>
      </head>
      <body>
        <ul>
          <li>item1</li>
          <li>item2</li>
          <li>
              <ol>
                <li>subitem1</li>
                <li>subitem2</li>
              </ol>
          </li>
        </ul>
      </body>
    </html>
  "##
  let h := load html'
  let doc := [0]
  let c1 := (find h doc "ul").length == 1
  let c2 := (find h doc "ul li").length == 5
  let c3 := (find h doc "ul > li").length == 3
  let c4 := (text h (find h doc "ul li:first-child")) == "item1subitem1"
  [c1, c2, c3, c4]

#guard test_doc_elements_1066.all id

/-- The example at `src/mesdoc/interface/elements.rs:1108`. -/
def test_doc_elements_1108 : List Bool :=
  let html' := r##"
    <html>
      <head>
        <title>document</title>
      </head>
      <body>
        <ul>
          <li>item1</li>
          <li class="item2">item2</li>
          <li>item3</li>
        </ul>
      </body>
    </html>
  "##
  let h := load html'
  let doc := [0]
  let items := (find h doc "li")
  let c1 := items.length == 3
  let c2 := (filter h items "[class]").length == 1
  let c3 := (text h (filter h items "[class]")) == "item2"
  let c4 := (filter h items "li:contains('item3')").length == 1
  let c5 := (text h (filter h items "li:contains('item3')")) == "item3"
  [c1, c2, c3, c4, c5]

#guard test_doc_elements_1108.all id

/-- The example at `src/mesdoc/interface/elements.rs:1145`. -/
def test_doc_elements_1145 : List Bool :=
  let html' := r##"
    <html>
      <head>
        <title>document</title>
      </head>
      <body>
        <ul>
          <li>item1</li>
          <li class="item2">item2</li>
          <li>item3</li>
        </ul>
      </body>
    </html>
  "##
  let h := load html'
  let doc := [0]
  let items := (find h doc "li")
  let c1 := items.length == 3
  let class_items := (filterBy (fun _ x => (attr h [x] "class").isSome) items 0)
  let c2 := class_items.length == 1
  let c3 := (text h class_items) == "item2"
  [c1, c2, c3]

#guard test_doc_elements_1145.all id

/-- The example at `src/mesdoc/interface/elements.rs:1188`. -/
def test_doc_elements_1188 : List Bool :=
  let html' := r##"
    <html>
      <head>
        <title>document</title>
      </head>
      <body>
        <ul>
          <li></li>
          <li class="item2">item2</li>
          <li class="item3"></li>
        </ul>
      </body>
    </html>
  "##
  let h := load html'
  let doc := [0]
  let items := (find h doc "li")
  let c1 := items.length == 3
  let empty_items := (filter h items ":empty")
  let class_items := (filter h items "[class]")
  let c2 := empty_items.length == 2
  let c3 := class_items.length == 2
  let class_and_empty_items := (filterIn class_items empty_items)
  let c4 := class_and_empty_items.length == 1
  let c5 := ((attr h class_and_empty_items "class").map fun v => String.ofList v.text).getD "none" == "item3"
  [c1, c2, c3, c4, c5]

#guard test_doc_elements_1188.all id

/-- The example at `src/mesdoc/interface/elements.rs:1226`. -/
def test_doc_elements_1226 : List Bool :=
  let html' := r##"
    <html>
      <head>
        <title>document</title>
      </head>
      <body>
        <dl>
          <dt>Title</dt>
          <dd>item1</dd>
          <dd class="item2">item2</dd>
          <dd class="item3">
              <dl>
                <dd>subitem1</dd>
                <dd>subitem2</dd>
              </dl>
          </dd>
        </dl>
      </body>
    </html>
  "##
  let h := load html'
  let doc := [0]
  let top_dl := (eqAt (find h doc "dl") 0)
  let all_dd := (find h top_dl "dd")
  let c1 := all_dd.length == 5
  let child_items := (children h top_dl "")
  let c2 := child_items.length == 4
  let child_dd := (children h top_dl "dd")
  let c3 := child_dd.length == 3
  [c1, c2, c3]

#guard test_doc_elements_1226.all id

/-- The example at `src/mesdoc/interface/elements.rs:1267`. -/
def test_doc_elements_1267 : List Bool :=
  let html' := r##"
    <html>
      <head>
        <title>document</title>
      </head>
      <body>
        <dl>
          <dt>Title</dt>
          <dd>item1</dd>
          <dd class="item2">item2</dd>
          <dd class="item3">item3</dd>
        </dl>
      </body>
    </html>
  "##
  let h := load html'
  let doc := [0]
  let dl := (find h doc "dl")
  let item3 := (children h dl ".item3")
  let c1 := (text h (prev h item3 "")) == "item2"
  let c2 := (prev h item3 ":not[class]").isEmpty == true
  [c1, c2]

#guard test_doc_elements_1267.all id

/-- The example at `src/mesdoc/interface/elements.rs:1300`. -/
def test_doc_elements_1300 : List Bool :=
  let html' := r##"
    <html>
      <head>
        <title>document</title>
      </head>
      <body>
        <dl>
          <dt>Title</dt>
          <dd>item1</dd>
          <dd class="item2">item2</dd>
          <dd class="item3">item3</dd>
        </dl>
      </body>
    </html>
  "##
  let h := load html'
  let doc := [0]
  let dl := (find h doc "dl")
  let item3 := (children h dl ".item3")
  let c1 := (prevAll h item3 "").length == 3
  let c2 := (prevAll h item3 "dd").length == 2
  let c3 := (prevAll h item3 "dt").length == 1
  let c4 := (prevAll h item3 "dd[class]").length == 1
  [c1, c2, c3, c4]

#guard test_doc_elements_1300.all id

/-- The example at `src/mesdoc/interface/elements.rs:1336`. -/
def test_doc_elements_1336 : List Bool :=
  let html' := r##"
    <html>
      <head>
        <title>document</title>
      </head>
      <body>
        <dl>
          <dt>Title</dt>
          <dd>item1</dd>
          <dd class="item2">item2</dd>
          <dd class="item3">item3</dd>
        </dl>
      </body>
    </html>
  "##
  let h := load html'
  let doc := [0]
  let dl := (find h doc "dl")
  let item3 := (children h dl ".item3")
  let c1 := (prevUntil h item3 "dt" "" false).length == 2
  let c2 := (is h (eqAt (prevUntil h item3 "dt" "" false) 0) "dd" == some true) == true
  let c3 := (prevUntil h item3 "dt" "" true).length == 3
  let c4 := (is h (eqAt (prevUntil h item3 "dt" "" true) 0) "dt" == some true) == true
  let c5 := (prevUntil h item3 "dt" "dd" true).length == 2
  let c6 := (is h (eqAt (prevUntil h item3 "dt" "dd" true) 0) "dd" == some true) == true
  [c1, c2, c3, c4, c5, c6]

#guard test_doc_elements_1336.all id

/-- The example at `src/mesdoc/interface/elements.rs:1381`. -/
def test_doc_elements_1381 : List Bool :=
  let html' := r##"
    <html>
      <head>
        <title>document</title>
      </head>
      <body>
        <dl>
          <dt>Title</dt>
          <dd>item1</dd>
          <dd class="item2">item2</dd>
          <dd class="item3">item3</dd>
        </dl>
      </body>
    </html>
  "##
  let h := load html'
  let doc := [0]
  let dl := (find h doc "dl")
  let dt := (children h dl "dt")
  let c1 := (text h (next h dt "")) == "item1"
  let c2 := (next h dt "[class]").isEmpty == true
  [c1, c2]

#guard test_doc_elements_1381.all id

/-- The example at `src/mesdoc/interface/elements.rs:1414`. -/
def test_doc_elements_1414 : List Bool :=
  let html' := r##"
    <html>
      <head>
        <title>document</title>
      </head>
      <body>
        <dl>
          <dt>Title</dt>
          <dd>item1</dd>
          <dd class="item2">item2</dd>
          <dd class="item3">item3</dd>
        </dl>
      </body>
    </html>
  "##
  let h := load html'
  let doc := [0]
  let dl := (find h doc "dl")
  let dt := (children h dl "dt")
  let c1 := (nextAll h dt "").length == 3
  let c2 := (nextAll h dt "[class]").length == 2
  let c3 := (text h (nextAll h dt "[class]")) == "item2item3"
  [c1, c2, c3]

#guard test_doc_elements_1414.all id

/-- The example at `src/mesdoc/interface/elements.rs:1450`. -/
def test_doc_elements_1450 : List Bool :=
  let html' := r##"
    <html>
      <head>
        <title>document</title>
      </head>
      <body>
        <dl>
          <dt>Title</dt>
          <dd>item1</dd>
          <dd class="item2">item2</dd>
          <dd class="item3">item3</dd>
        </dl>
      </body>
    </html>
  "##
  let h := load html'
  let doc := [0]
  let dl := (find h doc "dl")
  let dt := (children h dl "dt")
  let c1 := (nextUntil h dt ".item3" "" false).length == 2
  let c2 := (nextUntil h dt ".item3" "" true).length == 3
  let c3 := (nextUntil h dt ".item3" "[class]" false).length == 1
  let c4 := (nextUntil h dt ".item3" "[class]" true).length == 2
  [c1, c2, c3, c4]

#guard test_doc_elements_1450.all id

/-- The example at `src/mesdoc/interface/elements.rs:1487`. -/
def test_doc_elements_1487 : List Bool :=
  let html' := r##"
    <html>
      <head>
        <title>document</title>
      </head>
      <body>
        <dl>
          <dt>Title</dt>
          <dd>item1</dd>
          <dd class="item2">item2</dd>
          <dd class="item3">item3</dd>
        </dl>
      </body>
    </html>
  "##
  let h := load html'
  let doc := [0]
  let dl := (find h doc "dl")
  let item2 := (children h dl ".item2")
  let c1 := (siblings h item2 "").length == 3
  let c2 := (is h (firstE (siblings h item2 "")) "dt" == some true) == true
  let c3 := (text h (firstE (siblings h item2 "dd"))) == "item1"
  [c1, c2, c3]

#guard test_doc_elements_1487.all id

/-- The example at `src/mesdoc/interface/elements.rs:1570`. -/
def test_doc_elements_1570 : List Bool :=
  let html' := r##"
    <html>
      <head>
        <title>document</title>
      </head>
      <body>
        <dl>
          <dt>Title</dt>
          <dd>item1</dd>
          <dd class="item2">item2</dd>
          <dd class="item3">item3</dd>
        </dl>
      </body>
    </html>
  "##
  let h := load html'
  let doc := [0]
  let dl := (find h doc "dl")
  let item2 := (children h dl ".item2")
  let c1 := (parent h item2 "").length == 1
  let c2 := (tag h ((parent h item2 "").getD 0 0)) == "DL"
  let c3 := (parent h item2 "ul").length == 0
  [c1, c2, c3]

#guard test_doc_elements_1570.all id

/-- The example at `src/mesdoc/interface/elements.rs:1606`. -/
def test_doc_elements_1606 : List Bool :=
  let html' := r##"
    <html>
      <head>
        <title>document</title>
      </head>
      <body>
        <dl>
          <dt>Title</dt>
          <dd>item1</dd>
          <dd class="item2">item2</dd>
          <dd class="item3">item3</dd>
        </dl>
      </body>
    </html>
  "##
  let h := load html'
  let doc := [0]
  let dl := (find h doc "dl")
  let item2 := (children h dl ".item2")
  let c1 := (parents h item2 "").length == 3
  let c2 := (is h (firstE (parents h item2 "")) "html" == some true) == true
  let c3 := (is h (got bad (lastE (parents h item2 ""))) "dl" == some true) == true
  let c4 := (parents h item2 "dl").length == 1
  [c1, c2, c3, c4]

#guard test_doc_elements_1606.all id

/-- The example at `src/mesdoc/interface/elements.rs:1645`. -/
def test_doc_elements_1645 : List Bool :=
  let html' := r##"
    <html>
      <head>
        <title>document</title>
      </head>
      <body>
        <dl>
          <dt>Title</dt>
          <dd>item1</dd>
          <dd class="item2">item2</dd>
          <dd class="item3">item3</dd>
        </dl>
      </body>
    </html>
  "##
  let h := load html'
  let doc := [0]
  let dl := (find h doc "dl")
  let item2 := (children h dl ".item2")
  let c1 := (parentsUntil h item2 "body" "" false).length == 1
  let c2 := (parentsUntil h item2 "body" "" true).length == 2
  let c3 := (parentsUntil h item2 "body" "dl" true).length == 1
  [c1, c2, c3]

#guard test_doc_elements_1645.all id

/-- The example at `src/mesdoc/interface/elements.rs:1691`. -/
def test_doc_elements_1691 : List Bool :=
  let html' := r##"
    <html>
      <head>
        <title>document</title>
      </head>
      <body>
        <dl>
          <dt>Title</dt>
          <dd>item1</dd>
          <dd class="item2">item2</dd>
          <dd class="item3">item3</dd>
        </dl>
      </body>
    </html>
  "##
  let h := load html'
  let doc := [0]
  let dl := (find h doc "dl")
  let item2 := (children h dl ".item2")
  let c1 := (closest h item2 "dd").length == 1
  let c2 := (isAllIn (closest h item2 "dd") item2) == true
  let c3 := (isAllIn (closest h item2 "dl") (parent h item2 "")) == true
  [c1, c2, c3]

#guard test_doc_elements_1691.all id

/-- The example at `src/mesdoc/interface/elements.rs:1957`. -/
def test_doc_elements_1957 : List Bool :=
  let html' := r##"
    <html>
      <head>
        <title>document</title>
      </head>
      <body>
        <dl>
          <dt>Title</dt>
          <dd>item1</dd>
          <dd class="item2">item2</dd>
          <dd class="item3">item3</dd>
        </dl>
      </body>
    </html>
  "##
  let h := load html'
  let doc := [0]
  let dl := (find h doc "dl")
  let items := (children h dl "")
  let c1 := (is h items "dd" == some true) == true
  let c2 := (is h items "dt" == some true) == true
  let c3 := (is h items ".item2" == some true) == true
  let c4 := (is h items ".item3" == some true) == true
  let c5 := (is h items ":contains('item2')" == some true) == true
  [c1, c2, c3, c4, c5]

#guard test_doc_elements_1957.all id

/-- The example at `src/mesdoc/interface/elements.rs:1996`. -/
def test_doc_elements_1996 : List Bool :=
  let html' := r##"
    <html>
      <head>
        <title>document</title>
      </head>
      <body>
        <dl>
          <dt>Title</dt>
          <dd>item1</dd>
          <dd class="item2">item2</dd>
          <dd class="item3">item3</dd>
        </dl>
      </body>
    </html>
  "##
  let h := load html'
  let doc := [0]
  let dl := (find h doc "dl")
  let items := (children h dl "")
  let c1 := (isBy (fun _ x => tag h x == "DT") items 0) == true
  let c2 := (isBy (fun _ x => tag h x == "DD") items 0) == true
  let c3 := (isBy (fun _ x => hasClass h [x] "item2" == some true) items 0) == true
  [c1, c2, c3]

#guard test_doc_elements_1996.all id

/-- The example at `src/mesdoc/interface/elements.rs:2046`. -/
def test_doc_elements_2046 : List Bool :=
  let html' := r##"
    <html>
      <head>
        <title>document</title>
      </head>
      <body>
        <dl>
          <dt>Title</dt>
          <dd>item1</dd>
          <dd class="item2">item2</dd>
          <dd class="item3">item3</dd>
        </dl>
      </body>
    </html>
  "##
  let h := load html'
  let doc := [0]
  let dl := (find h doc "dl")
  let items := (children h dl "")
  let dd := (filter h items "dd")
  let dt := (filter h items "dt")
  let c1 := (isIn items dd) == true
  let c2 := (isIn items dt) == true
  [c1, c2]

#guard test_doc_elements_2046.all id

/-- The example at `src/mesdoc/interface/elements.rs:2081`. -/
def test_doc_elements_2081 : List Bool :=
  let html' := r##"
    <html>
      <head>
        <title>document</title>
      </head>
      <body>
        <dl>
          <dt>Title</dt>
          <dd>item1</dd>
          <dd class="item2">item2</dd>
          <dd class="item3">item3</dd>
        </dl>
      </body>
    </html>
  "##
  let h := load html'
  let doc := [0]
  let dl := (find h doc "dl")
  let items := (children h dl "")
  let c1 := (isAll h items "dd" == some true) == false
  let c2 := (isAll h items "dt" == some true) == false
  let c3 := (isAll h items "dt,dd" == some true) == true
  [c1, c2, c3]

#guard test_doc_elements_2081.all id

/-- The example at `src/mesdoc/interface/elements.rs:2118`. -/
def test_doc_elements_2118 : List Bool :=
  let html' := r##"
    <html>
      <head>
        <title>document</title>
      </head>
      <body>
        <dl>
          <dt>Title</dt>
          <dd>item1</dd>
          <dd class="item2">item2</dd>
          <dd class="item3">item3</dd>
        </dl>
      </body>
    </html>
  "##
  let h := load html'
  let doc := [0]
  let dl := (find h doc "dl")
  let items := (children h dl "")
  let c1 := (isAllBy (fun _ x => tag h x == "DT") items 0) == false
  let c2 := (isAllBy (fun _ x => tag h x == "DD") items 0) == false
  let c3 := (isAllBy (fun _ x => tag h x == "DT" || tag h x == "DD") items 0) == true
  [c1, c2, c3]

#guard test_doc_elements_2118.all id

/-- The example at `src/mesdoc/interface/elements.rs:2169`. -/
def test_doc_elements_2169 : List Bool :=
  let html' := r##"
    <html>
      <head>
        <title>document</title>
      </head>
      <body>
        <dl>
          <dt>Title</dt>
          <dd>item1</dd>
          <dd class="item2">item2</dd>
          <dd class="item3">item3</dd>
        </dl>
      </body>
    </html>
  "##
  let h := load html'
  let doc := [0]
  let dl := (find h doc "dl")
  let items := (children h dl "")
  let dd := (filter h items "dd")
  let dt := (filter h items "dt")
  let c1 := (isAllIn items dd) == false
  let c2 := (isAllIn items dt) == false
  let c3 := (isAllIn dd items) == true
  let c4 := (isAllIn dt items) == true
  [c1, c2, c3, c4]

#guard test_doc_elements_2169.all id

/-- The example at `src/mesdoc/interface/elements.rs:2206`. -/
def test_doc_elements_2206 : List Bool :=
  let html' := r##"
    <html>
      <head>
        <title>document</title>
      </head>
      <body>
        <dl>
          <dt>Title</dt>
          <dd>item1</dd>
          <dd class="item2">item2</dd>
          <dd class="item3">item3</dd>
        </dl>
      </body>
    </html>
  "##
  let h := load html'
  let doc := [0]
  let dl := (find h doc "dl")
  let items := (children h dl "")
  let c1 := (isAll h (not h items "dd") "dt" == some true) == true
  let c2 := (isAll h (not h items "dt") "dd" == some true) == true
  let c3 := (not h items "dt,dd").isEmpty == true
  [c1, c2, c3]

#guard test_doc_elements_2206.all id

/-- The example at `src/mesdoc/interface/elements.rs:2243`. -/
def test_doc_elements_2243 : List Bool :=
  let html' := r##"
    <html>
      <head>
        <title>document</title>
      </head>
      <body>
        <dl>
          <dt>Title</dt>
          <dd>item1</dd>
          <dd class="item2">item2</dd>
          <dd class="item3">item3</dd>
        </dl>
      </body>
    </html>
  "##
  let h := load html'
  let doc := [0]
  let dl := (find h doc "dl")
  let items := (children h dl "")
  let c1 := (isAll h (notBy (fun _ x => tag h x == "DD") items 0) "dt" == some true) == true
  let c2 := (isAll h (notBy (fun _ x => tag h x == "DT") items 0) "dd" == some true) == true
  let c3 := (notBy (fun _ x => tag h x == "DT" || tag h x == "DD") items 0).isEmpty == true
  [c1, c2, c3]

#guard test_doc_elements_2243.all id

/-- The example at `src/mesdoc/interface/elements.rs:2286`. -/
def test_doc_elements_2286 : List Bool :=
  let html' := r##"
    <html>
      <head>
        <title>document</title>
      </head>
      <body>
        <dl>
          <dt>Title</dt>
          <dd>item1</dd>
          <dd class="item2">item2</dd>
          <dd class="item3">item3</dd>
        </dl>
      </body>
    </html>
  "##
  let h := load html'
  let doc := [0]
  let dl := (find h doc "dl")
  let items := (children h dl "")
  let c1 := (isAll h (notIn items (filter h items "dd")) "dt" == some true) == true
  let c2 := (isAll h (notIn items (filter h items "dt")) "dd" == some true) == true
  let c3 := (notIn items items).isEmpty == true
  [c1, c2, c3]

#guard test_doc_elements_2286.all id

/-- The example at `src/mesdoc/interface/elements.rs:2320`. -/
def test_doc_elements_2320 : List Bool :=
  let html' := r##"
    <html>
      <head>
        <title>document</title>
      </head>
      <body>
        <dl>
          <dt>&lt;<strong>T</strong>itle&gt;</dt>
          <dd><span>item1</span></dd>
          <dd class="item2">item2</dd>
          <dd class="item3">item3</dd>
        </dl>
      </body>
    </html>
  "##
  let h := load html'
  let doc := [0]
  let dl := (find h doc "dl")
  let items := (children h dl "")
  let c1 := (text h (filter h items "dt")) == "<Title>"
  let c2 := (text h (filter h items "dd")) == "item1item2item3"
  [c1, c2]

#guard test_doc_elements_2320.all id

/-- The example at `src/mesdoc/interface/elements.rs:2371`. -/
def test_doc_elements_2371 : List Bool :=
  let html' := r##"
    <html>
      <head>
        <title>document</title>
      </head>
      <body>
        <dl>
          <dt>Title</dt>
          <dd><span>item1</span></dd>
          <dd class="item2"><span>item2</span></dd>
          <dd class="item3">item3</dd>
        </dl>
      </body>
    </html>
  "##
  let h := load html'
  let doc := [0]
  let dl := (find h doc "dl")
  let items := (children h dl "")
  let c1 := items.length == 4
  let c2 := (hasIn h items (children h items "span")).length == 2
  let c3 := (hasIn h dl items).length == 1
  [c1, c2, c3]

#guard test_doc_elements_2371.all id

/-- The example at `src/mesdoc/interface/elements.rs:2426`. -/
def test_doc_elements_2426 : List Bool :=
  let html' := r##"
    <html>
      <head>
        <title>document</title>
      </head>
      <body>
        <dl>
          <dt>Title</dt>
          <dd><span>item1</span></dd>
          <dd class="item2"><span>item2</span></dd>
          <dd class="item3">item3</dd>
        </dl>
      </body>
    </html>
  "##
  let h := load html'
  let doc := [0]
  let dl := (find h doc "dl")
  let items := (children h dl "")
  let c1 := (is h (eqAt items 0) "dt" == some true) == true
  let c2 := (hasClass h (eqAt items 2) "item2" == some true) == true
  [c1, c2]

#guard test_doc_elements_2426.all id

/-- The example at `src/mesdoc/interface/elements.rs:2463`. -/
def test_doc_elements_2463 : List Bool :=
  let html' := r##"
    <html>
      <head>
        <title>document</title>
      </head>
      <body>
        <dl>
          <dt>Title</dt>
          <dd><span>item1</span></dd>
          <dd class="item2"><span>item2</span></dd>
          <dd class="item3">item3</dd>
        </dl>
      </body>
    </html>
  "##
  let h := load html'
  let doc := [0]
  let dl := (find h doc "dl")
  let items := (children h dl "")
  let c1 := (isAllIn (firstE items) (eqAt items 0)) == true
  let c2 := (is h (firstE items) "dt" == some true) == true
  [c1, c2]

#guard test_doc_elements_2463.all id

/-- The example at `src/mesdoc/interface/elements.rs:2496`. -/
def test_doc_elements_2496 : List Bool :=
  let html' := r##"
    <html>
      <head>
        <title>document</title>
      </head>
      <body>
        <dl>
          <dt>Title</dt>
          <dd><span>item1</span></dd>
          <dd class="item2"><span>item2</span></dd>
          <dd class="item3">item3</dd>
        </dl>
      </body>
    </html>
  "##
  let h := load html'
  let doc := [0]
  let dl := (find h doc "dl")
  let items := (children h dl "")
  let c1 := (isAllIn (got bad (lastE items)) (eqAt items (items.length - 1))) == true
  let c2 := (is h (got bad (lastE items)) ".item3" == some true) == true
  [c1, c2]

#guard test_doc_elements_2496.all id

/-- The example at `src/mesdoc/interface/elements.rs:2529`. -/
def test_doc_elements_2529 : List Bool :=
  let html' := r##"
    <html>
      <head>
        <title>document</title>
      </head>
      <body>
        <dl>
          <dt>Title</dt>
          <dd><span>item1</span></dd>
          <dd class="item2"><span>item2</span></dd>
          <dd class="item3">item3</dd>
        </dl>
      </body>
    </html>
  "##
  let h := load html'
  let doc := [0]
  let dl := (find h doc "dl")
  let items := (children h dl "")
  let c1 := (got bad (sliceE items (.unbounded) (.unbounded))).length == 4
  let c2 := (got bad (sliceE items (.included 0) (.excluded 3))).length == 3
  let c3 := (got bad (sliceE items (.included 0) (.included 3))).length == 4
  let c4 := (got bad (sliceE items (.included 0) (.excluded 10))).length == 4
  [c1, c2, c3, c4]

#guard test_doc_elements_2529.all id

/-- The example at `src/mesdoc/interface/elements.rs:2603`. -/
def test_doc_elements_2603 : List Bool :=
  let html' := r##"
    <html>
      <head>
        <title>document</title>
      </head>
      <body>
        <dl>
          <dt>Title</dt>
          <dd><span>item1</span></dd>
          <dd class="item2"><span>item2</span></dd>
          <dd class="item3">item3</dd>
        </dl>
      </body>
    </html>
  "##
  let h := load html'
  let doc := [0]
  let dl := (find h doc "dl")
  let items := (children h dl "")
  let dt := (filter h items "dt")
  let class_dd := (filter h items "[class]")
  let c1 := dt.length == 1
  let c2 := class_dd.length == 2
  let add_dt_dd := (got bad (addElems h dt class_dd))
  let c3 := add_dt_dd.length == 3
  [c1, c2, c3]

#guard test_doc_elements_2603.all id

/-- The example at `src/mesdoc/interface/elements.rs:2820`. -/
def test_doc_elements_2820 : List Bool :=
  let html' := r##"
    <html>
      <head>
        <title>document</title>
      </head>
      <body>
        <input type="text" value="textvalue" />
        <select name="single">
          <option value="default"></option>
          <option value="opt1">opt1</option>
          <option value="opt2">opt1</option>
        </select>
        <select multiple>
          <option value="default"></option>
          <option value="opt1" selected="selected">opt1</option>
          <option value="opt2" selected="selected">opt1</option>
        </select>
        <textarea><div>hello</div></textarea>
      </body>
    </html>
  "##
  let h := load html'
  let doc := [0]
  let input := (find h doc "input[type='text']")
  let c1 := (val h input) == "textvalue"
  let select := (find h doc "select[name='single']")
  let c2 := (val h select) == "default"
  let multi_select := (find h doc "select[multiple]")
  let c3 := (val h multi_select) == "opt1,opt2"
  let textarea := (find h doc "textarea")
  let c4 := (val h textarea) == "<div>hello</div>"
  [c1, c2, c3, c4]

#guard test_doc_elements_2820.all id

/-- The example at `src/mesdoc/interface/elements.rs:2866`. -/
def test_doc_elements_2866 : List Bool :=
  let html' := r##"
    <html>
      <head>
        <title>document</title>
      </head>
      <body>
        <dl>
          <dt>Title</dt>
          <dd><span>item1</span></dd>
          <dd class="item2"><span>item2</span></dd>
          <dd class="item3">item3</dd>
        </dl>
      </body>
    </html>
  "##
  let h := load html'
  let doc := [0]
  let dl := (find h doc "dl")
  let items := (children h dl "")
  let dt := (filter h items "dt")
  let class_dd := (filter h items "[class]")
  let c1 := dt.length == 1
  let c2 := class_dd.length == 2
  let add_dt_dd := (got bad (addElems h dt class_dd))
  let c3 := add_dt_dd.length == 3
  [c1, c2, c3]

#guard test_doc_elements_2866.all id

/-- The example at `src/mesdoc/interface/elements.rs:2907`. -/
def test_doc_elements_2907 : List Bool :=
  let html' := r##"
    <html>
      <head>
        <title>set_text()</title>
      </head>
      <body>
        <dl>
          <dt>Title</dt>
          <dd><span>item1</span></dd>
          <dd class="item2"><span>item2</span></dd>
          <dd class="item3">item3</dd>
        </dl>
      </body>
    </html>
  "##
  let h := load html'
  let doc := [0]
  let dl := (find h doc "dl")
  let items := (children h dl "")
  let dt := (filter h items "dt")
  let h := got noHeap (.ok (setTextAll h ext dt "<Title>".toList))
  let c1 := (text h dt) == "<Title>"
  let c2 := (html h dt) == "&lt;Title&gt;"
  let item2 := (filter h items ".item2")
  let c3 := (html h item2) == "<span>item2</span>"
  let h := got noHeap (.ok (setTextAll h ext item2 "item2".toList))
  let c4 := (html h item2) == "item2"
  [c1, c2, c3, c4, decide (0 < h.size)]

#guard test_doc_elements_2907.all id

/-- The example at `src/mesdoc/interface/elements.rs:2949`. -/
def test_doc_elements_2949 : List Bool :=
  let html' := r##"
    <html>
      <head>
        <title>html()</title>
      </head>
      <body>
        <dl>
          <dt>Title</dt>
          <dd><span>item1</span></dd>
          <dd class="item2"><span>item2</span></dd>
          <dd class="item3"><!--comment-->item3</dd>
        </dl>
      </body>
    </html>
  "##
  let h := load html'
  let doc := [0]
  let dl := (find h doc "dl")
  let items := (children h dl "")
  let item2 := (filter h items ".item2")
  let c1 := (html h item2) == "<span>item2</span>"
  let item3 := (filter h items ".item3")
  let c2 := (html h item3) == "<!--comment-->item3"
  [c1, c2]

#guard test_doc_elements_2949.all id

/-- The example at `src/mesdoc/interface/elements.rs:2987`. -/
def test_doc_elements_2987 : List Bool :=
  let html' := r##"
    <html>
      <head>
        <title>htmls()</title>
      </head>
      <body>
        <div><span class="div1span">span1</span></div>
        <div><span class="div2span">span2</span></div>
      </body>
    </html>
  "##
  let h := load html'
  let doc := [0]
  let divs := (find h doc "div")
  let c1 := (htmls h divs) == r##"<span class="div1span">span1</span><span class="div2span">span2</span>"##
  let c2 := (htmls h (find h doc "p")) == ""
  [c1, c2]

#guard test_doc_elements_2987.all id

/-- The example at `src/mesdoc/interface/elements.rs:3015`. -/
def test_doc_elements_3015 : List Bool :=
  let html' := r##"
    <html>
      <head>
        <title>document</title>
      </head>
      <body>
        <dl>
          <dt>Title</dt>
          <dd><span>item1</span></dd>
          <dd class="item2"><span>item2</span></dd>
          <dd class="item3"><!--comment-->item3</dd>
        </dl>
      </body>
    </html>
  "##
  let h := load html'
  let doc := [0]
  let dl := (find h doc "dl")
  let items := (children h dl "")
  let item2 := (filter h items ".item2")
  let c1 := (html h item2) == "<span>item2</span>"
  let h := got noHeap (setHtmlAll ext "set_html:<em>item2</em>".toList h item2)
  let c2 := (html h item2) == "set_html:<em>item2</em>"
  [c1, c2, decide (0 < h.size)]

#guard test_doc_elements_3015.all id

/-- The example at `src/mesdoc/interface/elements.rs:3053`. -/
def test_doc_elements_3053 : List Bool :=
  let html' := r##"
    <html>
      <head>
        <title>document</title>
      </head>
      <body>
        <dl>
          <dt>Title</dt>
          <dd><span>item1</span></dd>
          <dd class="item2"><span>item2</span></dd>
          <dd class="item3"><!--comment-->item3</dd>
        </dl>
      </body>
    </html>
  "##
  let h := load html'
  let doc := [0]
  let dl := (find h doc "dl")
  let items := (children h dl "")
  let item2 := (filter h items ".item2")
  let c1 := (outerHtml h item2) == r##"<dd class="item2"><span>item2</span></dd>"##
  [c1]

#guard test_doc_elements_3053.all id

/-- The example at `src/mesdoc/interface/elements.rs:3089`. -/
def test_doc_elements_3089 : List Bool :=
  let html' := r##"
    <html>
      <head>
        <title>outer_htmls()</title>
      </head>
      <body>
        <div><span class="div1span">span1</span></div>
        <div><span class="div2span">span2</span></div>
      </body>
    </html>
  "##
  let h := load html'
  let doc := [0]
  let divs := (find h doc "div")
  let c1 := (outerHtmls h divs) == r##"<div><span class="div1span">span1</span></div><div><span class="div2span">span2</span></div>"##
  let c2 := (outerHtmls h (find h doc "p")) == ""
  [c1, c2]

#guard test_doc_elements_3089.all id

/-- The example at `src/mesdoc/interface/elements.rs:3166`. -/
def test_doc_elements_3166 : List Bool :=
  let html' := r##"
    <html>
      <head>
        <title>document</title>
      </head>
      <body>
        <input type="text" class="inp inp-txt" readonly />
      </body>
    </html>
  "##
  let h := load html'
  let doc := [0]
  let input := (find h doc "input")
  let attr_readonly := (attr h input "readonly")
  let c1 := (attr_readonly.isSome && (attr_readonly.any fun v => v.isTrue))
  let attr_type := (attr h input "type")
  let c2 := (attr_type.isSome && ((attr_type.map fun v => String.ofList v.text).getD "none" == "text"))
  let attr_class := (attr h input "class")
  let c3 := (attr_class.isSome && ((((attr_class.map fun v => v.toList.map String.ofList).getD []).splitOn "inp").length > 1))
  [c1, c2, c3]

#guard test_doc_elements_3166.all id

/-- The example at `src/mesdoc/interface/elements.rs:3200`. -/
def test_doc_elements_3200 : List Bool :=
  let html' := r##"
    <html>
      <head>
        <title>document</title>
      </head>
      <body>
        <input type="text" class="inp inp-txt" readonly />
      </body>
    </html>
  "##
  let h := load html'
  let doc := [0]
  let input := (find h doc "input")
  let c1 := (got false (h.hasAttr "readonly".toList input))
  let c2 := (got false (h.hasAttr "class".toList input))
  let c3 := (got false (h.hasAttr "type".toList input))
  let c4 := (got false (h.hasAttr "value".toList input)) == false
  [c1, c2, c3, c4]

#guard test_doc_elements_3200.all id

/-- The example at `src/mesdoc/interface/elements.rs:3234`. -/
def test_doc_elements_3234 : List Bool :=
  let html' := r##"
    <html>
      <head>
        <title>document</title>
      </head>
      <body>
        <input type="text" class="inp inp-txt" readonly />
      </body>
    </html>
  "##
  let h := load html'
  let doc := [0]
  let input := (find h doc "input")
  let c1 := (got false (h.hasAttr "value".toList input)) == false
  let h := got noHeap (h.setAttr quotes input "value".toList none)
  let c2 := ((attr h input "value").isSome && ((attr h input "value").any fun v => v.isTrue))
  let h := got noHeap (h.setAttr quotes input "value".toList (some "myinput".toList))
  let c3 := ((attr h input "value").isSome && (((attr h input "value").map fun v => String.ofList v.text).getD "none" == "myinput"))
  let h := got noHeap (h.setAttr quotes input "value".toList (some "".toList))
  let c4 := ((attr h input "value").isSome && (((attr h input "value").any fun v => v.isTrue) == false))
  [c1, c2, c3, c4, decide (0 < h.size)]

#guard test_doc_elements_3234.all id

/-- The example at `src/mesdoc/interface/elements.rs:3269`. -/
def test_doc_elements_3269 : List Bool :=
  let html' := r##"
    <html>
      <head>
        <title>document</title>
      </head>
      <body>
        <input type="text" class="inp inp-txt" readonly />
      </body>
    </html>
  "##
  let h := load html'
  let doc := [0]
  let input := (find h doc "input")
  let c1 := (got false (h.hasAttr "value".toList input)) == false
  let h := got noHeap (h.setAttr quotes input "value".toList none)
  let c2 := ((attr h input "value").isSome && ((attr h input "value").any fun v => v.isTrue))
  let h := got noHeap (h.removeAttr input "value".toList)
  let c3 := (attr h input "value").isNone
  let c4 := (attr h input "readonly").isSome
  let h := got noHeap (h.removeAttr input "readonly".toList)
  let c5 := (attr h input "readonly").isNone
  [c1, c2, c3, c4, c5, decide (0 < h.size)]

#guard test_doc_elements_3269.all id

/-- The example at `src/mesdoc/interface/elements.rs:3305`. -/
def test_doc_elements_3305 : List Bool :=
  let html' := r##"
    <html>
      <head>
        <title>document</title>
      </head>
      <body>
        <input type="text" class="inp inp-txt" readonly />
      </body>
    </html>
  "##
  let h := load html'
  let doc := [0]
  let input := (find h doc "input")
  let c1 := (hasClass h input "inp" == some true) == true
  let c2 := (hasClass h input "inp-txt" == some true) == true
  let c3 := (hasClass h input "inp-txt inp" == some true) == true
  let c4 := (hasClass h input "inp-txt inp noinp" == some true) == false
  [c1, c2, c3, c4]

#guard test_doc_elements_3305.all id

/-- The example at `src/mesdoc/interface/elements.rs:3357`. -/
def test_doc_elements_3357 : List Bool :=
  let html' := r##"
    <html>
      <head>
        <title>document</title>
      </head>
      <body>
        <input type="text" class="inp inp-txt" readonly />
      </body>
    </html>
  "##
  let h := load html'
  let doc := [0]
  let input := (find h doc "input")
  let c1 := (hasClass h input "noinp" == some true) == false
  let c2 := (hasClass h input "inp-red" == some true) == false
  let h := got noHeap (h.addClass quotes input "noinp inp-red".toList)
  let c3 := (hasClass h input "noinp" == some true) == true
  let c4 := (hasClass h input "inp-red" == some true) == true
  [c1, c2, c3, c4, decide (0 < h.size)]

#guard test_doc_elements_3357.all id

/-- The example at `src/mesdoc/interface/elements.rs:3407`. -/
def test_doc_elements_3407 : List Bool :=
  let html' := r##"
    <html>
      <head>
        <title>document</title>
      </head>
      <body>
        <input type="text" class="inp inp-txt" readonly />
      </body>
    </html>
  "##
  let h := load html'
  let doc := [0]
  let input := (find h doc "input")
  let c1 := (hasClass h input "inp" == some true) == true
  let c2 := (hasClass h input "inp-txt" == some true) == true
  let h := got noHeap (h.removeClass quotes input "inp inp-txt".toList)
  let c3 := (hasClass h input "inp" == some true) == false
  let c4 := (hasClass h input "inp-txt" == some true) == false
  let c5 := (got false (h.hasAttr "class".toList input)) == true
  [c1, c2, c3, c4, c5, decide (0 < h.size)]

#guard test_doc_elements_3407.all id

/-- The example at `src/mesdoc/interface/elements.rs:3461`. -/
def test_doc_elements_3461 : List Bool :=
  let html' := r##"
    <html>
      <head>
        <title>document</title>
      </head>
      <body>
        <input type="text" class="inp inp-txt" readonly />
      </body>
    </html>
  "##
  let h := load html'
  let doc := [0]
  let input := (find h doc "input")
  let c1 := (hasClass h input "inp" == some true) == true
  let c2 := (hasClass h input "inp-txt" == some true) == true
  let h := got noHeap (h.toggleClass quotes input "inp inp-red".toList)
  let c3 := (hasClass h input "inp" == some true) == false
  let c4 := (hasClass h input "inp-txt" == some true) == true
  let c5 := (hasClass h input "inp-red" == some true) == true
  [c1, c2, c3, c4, c5, decide (0 < h.size)]

#guard test_doc_elements_3461.all id

/-- The example at `src/mesdoc/interface/elements.rs:3539`. -/
def test_doc_elements_3539 : List Bool :=
  let html' := r##"
    <html>
      <head>
        <title>document</title>
      </head>
      <body>
        <dl>
          <dt>Title</dt>
          <dd><span class="span">item1</span></dd>
          <dd class="item2"><span>item2</span></dd>
          <dd class="item3"><!--comment-->item3</dd>
        </dl>
      </body>
    </html>
  "##
  let h := load html'
  let doc := [0]
  let dl := (find h doc "dl")
  let span := (find h dl "span.span")
  let c1 := (text h span) == "item1"
  let cl := copyAll copier h dl
  let h := cl.1
  let clone_dl := cl.2
  let clone_span := (find h clone_dl "span.span")
  let h := got noHeap (.ok (setTextAll h ext clone_span "span".toList))
  let c2 := (text h span) == "item1"
  let c3 := (text h (find h clone_dl "span.span")) == "span"
  [c1, c2, c3, decide (0 < h.size)]

#guard test_doc_elements_3539.all id

/-- The example at `src/mesdoc/interface/elements.rs:3584`. -/
def test_doc_elements_3584 : List Bool :=
  let html' := r##"
    <html>
      <head>
        <title>document</title>
      </head>
      <body>
        <dl>
          <dt>Title</dt>
          <dd><span>item1</span></dd>
          <dd class="item2"><span>item2</span></dd>
          <dd class="item3"><!--comment-->item3</dd>
        </dl>
      </body>
    </html>
  "##
  let h := load html'
  let doc := [0]
  let dl := (find h doc "dl")
  let items := (children h dl "")
  let c1 := items.length == 4
  let t1 := (filter h items "dt")
  let h := got noHeap (removeAll h t1)
  let now_items := (children h dl "")
  let c2 := now_items.length == 3
  [c1, c2, decide (0 < h.size)]

#guard test_doc_elements_3584.all id

/-- The example at `src/mesdoc/interface/elements.rs:3624`. -/
def test_doc_elements_3624 : List Bool :=
  let html' := r##"
    <html>
      <head>
        <title>document</title>
      </head>
      <body>
        <dl>
          <dt>Title</dt>
          <dd><span>item1</span></dd>
          <dd class="item2"><span>item2</span></dd>
          <dd class="item3"><!--comment-->item3</dd>
        </dl>
      </body>
    </html>
  "##
  let h := load html'
  let doc := [0]
  let dl := (find h doc "dl")
  let items := (children h dl "")
  let c1 := items.length == 4
  let h := got noHeap (.ok (emptyAll h ext dl))
  let now_items := (children h dl "")
  let c2 := now_items.length == 0
  [c1, c2, decide (0 < h.size)]

#guard test_doc_elements_3624.all id

/-- The example at `src/mesdoc/interface/elements.rs:3680`. -/
def test_doc_elements_3680 : List Bool :=
  let html' := r##"
    <html>
      <head>
        <title>document</title>
      </head>
      <body>
        <dl>
          <dt>Title</dt>
          <dd><span>item1</span></dd>
          <dd class="item2"><span>item2</span></dd>
          <dd class="item3"><!--comment-->item3</dd>
        </dl>
      </body>
    </html>
  "##
  let h := load html'
  let doc := [0]
  let dl := (find h doc "dl")
  let items := (children h dl "")
  let c1 := items.length == 4
  let c2 := (is h (got bad (lastE items)) ".item3" == some true) == true
  let item2 := (filter h items ".item2")
  let h := got noHeap (insertAll ext .beforeEnd item2 h dl)
  let now_items := (children h dl "")
  let c3 := (is h (got bad (lastE now_items)) ".item2" == some true) == true
  let ld := loadTo h r##"<dd class="item4">item4</dd>"##
  let h := ld.1
  let append_dd := ld.2
  let h := got noHeap (insertAll ext .beforeEnd append_dd h dl)
  let now_items := (children h dl "")
  let c4 := (is h (got bad (lastE now_items)) ".item4" == some true) == true
  [c1, c2, c3, c4, decide (0 < h.size)]

#guard test_doc_elements_3680.all id

/-- The example at `src/mesdoc/interface/elements.rs:3738`. -/
def test_doc_elements_3738 : List Bool :=
  let html' := r##"
    <html>
      <head>
        <title>document</title>
      </head>
      <body>
        <dl>
          <dt>Title</dt>
          <dd><span>item1</span></dd>
          <dd class="item2"><span>item2</span></dd>
          <dd class="item3"><!--comment-->item3</dd>
        </dl>
      </body>
    </html>
  "##
  let h := load html'
  let doc := [0]
  let dl := (find h doc "dl")
  let items := (children h dl "")
  let c1 := items.length == 4
  let c2 := (is h (got bad (lastE items)) ".item3" == some true) == true
  let item2 := (filter h items ".item2")
  let item3 := (filter h items ".item3")
  let h := got noHeap (insertAll ext .beforeBegin item3 h item2)
  let now_items := (children h dl "")
  let c3 := (is h (got bad (lastE now_items)) ".item2" == some true) == true
  let ld := loadTo h r##"<dd class="item0">item0</dd>"##
  let h := ld.1
  let insert_dd := ld.2
  let first_dd := (firstE (children h dl "dd"))
  let h := got noHeap (insertAll ext .beforeBegin insert_dd h first_dd)
  let now_dds := (children h dl "dd")
  let c4 := (is h (firstE now_dds) ".item0" == some true) == true
  [c1, c2, c3, c4, decide (0 < h.size)]

#guard test_doc_elements_3738.all id

/-- The example at `src/mesdoc/interface/elements.rs:3800`. -/
def test_doc_elements_3800 : List Bool :=
  let html' := r##"
    <html>
      <head>
        <title>document</title>
      </head>
      <body>
        <dl>
          <dt>Title</dt>
          <dd><span>item1</span></dd>
          <dd class="item2"><span>item2</span></dd>
          <dd class="item3"><!--comment-->item3</dd>
        </dl>
      </body>
    </html>
  "##
  let h := load html'
  let doc := [0]
  let dl := (find h doc "dl")
  let dt := (children h dl "dt")
  let c1 := dt.length == 1
  let c2 := (children h dl "dd").length == 3
  let ld := loadTo h "<dd>replace</dd>"
  let h := ld.1
  let new_dd := ld.2
  let h := got noHeap ((replaceAll ext new_dd h dt).map (·.1))
  let c3 := (children h dl "dd").length == 4
  let c4 := (children h dl "dt").length == 0
  let c5 := (text h (eqAt (children h dl "dd") 0)) == "replace"
  let dds := (children h dl "")
  let first_dd := (firstE dds)
  let last_dd := (got bad (lastE dds))
  let h := got noHeap ((replaceAll ext first_dd h last_dd).map (·.1))
  let c6 := (children h dl "").length == 3
  let c7 := (text h (got bad (lastE (children h dl "")))) == "replace"
  [c1, c2, c3, c4, c5, c6, c7, decide (0 < h.size)]

#guard test_doc_elements_3800.all id

/-- The example at `src/lib.rs:1143`. -/
def test_doc_lib_1143 : List Bool :=
  let html' := r##"
     <!doctype html>
     <html>
       <head>
         <meta charset="utf-8" />
       </head>
       <body>
          <nav id="header">
           <ul>
             <li>Hello,</li>
             <li>Vis</li>
             <li>Dom</li>
           </ul>
         </nav>
       </body>
    </html>
  "##
  let h := load html'
  let doc := [0]
  let header := (find h doc "#header")
  let list_items := (children h header "ul > li")
  let c1 := list_items.length == 3
  let c2 := (text h list_items) == "Hello,VisDom"
  let second_child := (filter h list_items ":nth-child(2)")
  let c3 := (text h second_child) == "Vis"
  let ld := loadTo h "<li>!</li>"
  let h := ld.1
  let fourth_child := ld.2
  let parent' := (parent h list_items "")
  let c4 := parent'.length == 1
  let h := got noHeap (insertAll ext .beforeEnd fourth_child h parent')
  let cur_list_items := (children h header "ul > li")
  let c5 := cur_list_items.length == 4
  let c6 := (text h cur_list_items) == "Hello,VisDom!"
  let texts := (got bad (textsAll h ext.contentTag 0 cur_list_items))
  let h := got noHeap (textsEach (wrapStep "[".toList "]".toList) 0 h texts)
  let c7 := (text h cur_list_items) == "[Hello,][Vis][Dom][!]"
  let h := got noHeap (textsEach (setStep ext "@".toList) 0 h texts)
  let c8 := (text h cur_list_items) == "@@@@"
  let h := got noHeap (textsEach (fun h _ x => (h.setHtml ext x ("<span>" ++ text h [x] ++ "</span><b>!</b>").toList).map fun h => (h, true)) 0 h texts)
  let c9 := (children h cur_list_items "b").length == 4
  let c10 := (text h cur_list_items) == "@!@!@!@!"
  [c1, c2, c3, c4, c5, c6, c7, c8, c9, c10, decide (0 < h.size)]

#guard test_doc_lib_1143.all id

end Visdom.Conform
