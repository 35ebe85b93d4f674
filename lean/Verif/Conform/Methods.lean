import Verif.Conform.Loader
/-!
# The tests of `/repo/tests/method.rs` on the model

Tests, not proofs. Every call and every assertion of the 34 tests was translated one for one. The list of 3000 items is cut to 60: the model is run by the interpreter.
-/
set_option linter.unusedVariables false
namespace Visdom.Conform
open Visdom Spec

/-- `tests/method.rs:37 test_method_find`. -/
def test_method_find : List Bool :=
  let h := load r##"
  <html>
    <head></head>
    <body>
      <div id="id">
        <div class="class">class-div</div>
        <p>
          p-tag
        </p>
      </div>
      <div id="nested">
        <div class="outer-div-1">
          <div class="inner-div-1-1">inner-div-1-1</div>
          <div class="inner-div-1-2">inner-div-<span>1</span>-<span>2</span></div>
        </div>
        <div class="outer-div-2">
          <div class="inner-div-2-1"></div>
          <div class="inner-div-2-2"></div>
        </div>
      </div>
    </body>
  </html>
"##
  let root := [0]
  let id_ele := (find h root "div#id")
  let c1 := id_ele.length == 1
  let children' := (find h id_ele "> *")
  let c2 := children'.length == 2
  let p_ele := (find h id_ele "p")
  let c3 := p_ele.length == 1
  let ul_ele := (find h id_ele "ul")
  let c4 := ul_ele.length == 0
  let c5 := (find h root "div~#nested").length == 1
  let c6 := (find h root "div+#nested").length == 1
  let c7 := (find h root "body>#nested").length == 1
  let inner_div_1 := (find h root ".outer-div-1")
  let inner_div_2_2 := (find h inner_div_1 "~div > .inner-div-2-2")
  let c8 := inner_div_2_2.length == 1
  let inner_div_2_2 := (find h inner_div_1 "+div > .inner-div-2-2")
  let c9 := inner_div_2_2.length == 1
  let outer_div_2 := (find h (find h root "#nested") "div + .inner-div-2-2")
  let c10 := outer_div_2.length == 1
  let outer_div_2 := (find h (find h root "#nested") "div ~ .inner-div-2-2")
  let c11 := outer_div_2.length == 1
  let div := (find h root "div")
  let inner_div_2_2 := (find h div ".inner-div-2-2")
  let c12 := inner_div_2_2.length == 1
  let firsts := (find h div ":nth-child(1)")
  let c13 := firsts.length == 5
  let c14 := (is h (eqAt firsts 3) "span" == some true)
  let after_firsts := (find h div ":nth-child(n + 2)")
  let c15 := after_firsts.length == 5
  let c16 := (is h (eqAt after_firsts 0) "p" == some true)
  let inner_div_2_2 := (find h id_ele "~div .outer-div-1 + div > div.inner-div-2-2")
  let c17 := inner_div_2_2.length == 1
  let c18 := (hasClass h inner_div_2_2 "inner-div-2-2" == some true)
  let inner_div_2_2 := (find h id_ele "+#nested .outer-div-1 ~ .outer-div-2 > div.inner-div-2-2")
  let c19 := inner_div_2_2.length == 1
  let c20 := (hasClass h inner_div_2_2 "inner-div-2-2" == some true)
  let nested := (find h root "div#id ~ div#nested")
  let c21 := nested.length == 1
  let divs := (find h nested "div")
  let c22 := divs.length == 6
  let is_position_ok := (isStr h (eqAt divs 1) "class" "inner-div-1-1")
  let c23 := is_position_ok
  let sub_divs := (find h divs "div")
  let c24 := sub_divs.length == 4
  let outer_and_inner := (find h nested "[class|='outer'],[class|='inner']")
  let c25 := outer_and_inner.length == 6
  let c26 := (isStr h (eqAt outer_and_inner 1) "class" "inner-div-1-1")
  let inner_div := (find h root "div .inner-div-2-2")
  let c27 := inner_div.length == 1
  let inner_div := (find h root "div+.inner-div-2-2")
  let c28 := inner_div.length == 1
  let inner_div := (find h root "div~.inner-div-2-2")
  let c29 := inner_div.length == 1
  [c1, c2, c3, c4, c5, c6, c7, c8, c9, c10, c11, c12, c13, c14, c15, c16, c17, c18, c19, c20, c21, c22, c23, c24, c25, c26, c27, c28, c29]

#guard test_method_find.all id

/-- `tests/method.rs:105 test_method_filter`. -/
def test_method_filter : List Bool :=
  let h := load r##"
  <html>
    <head></head>
    <body>
      <div id="id">
        <div class="class">class-div</div>
        <p>
          p-tag
        </p>
      </div>
      <div id="nested">
        <div class="outer-div-1">
          <div class="inner-div-1-1">inner-div-1-1</div>
          <div class="inner-div-1-2">inner-div-<span>1</span>-<span>2</span></div>
        </div>
        <div class="outer-div-2">
          <div class="inner-div-2-1"></div>
          <div class="inner-div-2-2"></div>
        </div>
      </div>
    </body>
  </html>
"##
  let root := [0]
  let divs := (find h root "div")
  let id_ele := (filter h divs "#id")
  let c1 := id_ele.length == 1
  let div_in_id := (filter h divs "#id > *")
  let c2 := div_in_id.length == 1
  let outer_div_in_nested := (filter h divs "#nested > [class|='outer']")
  let c3 := outer_div_in_nested.length == 2
  let inner_div_in_nested := (filter h divs "#nested > [class|='outer'] > [class|='inner']")
  let c4 := inner_div_in_nested.length == 4
  let id_not_ok_ele := (filter h divs "div > #id")
  let c5 := id_not_ok_ele.length == 0
  let id_ok_ele := (filter h divs "html body > #id")
  let c6 := id_ok_ele.length == 1
  [c1, c2, c3, c4, c5, c6]

#guard test_method_filter.all id

/-- `tests/method.rs:124 test_method_filter_by`. -/
def test_method_filter_by : List Bool :=
  let h := load r##"
  <html>
    <head></head>
    <body>
      <div id="id">
        <div class="class">class-div</div>
        <p>
          p-tag
        </p>
      </div>
      <div id="nested">
        <div class="outer-div-1">
          <div class="inner-div-1-1">inner-div-1-1</div>
          <div class="inner-div-1-2">inner-div-<span>1</span>-<span>2</span></div>
        </div>
        <div class="outer-div-2">
          <div class="inner-div-2-1"></div>
          <div class="inner-div-2-2"></div>
        </div>
      </div>
    </body>
  </html>
"##
  let root := [0]
  let id_divs := (find h root "div[id]")
  let c1 := id_divs.length == 2
  let filter_id := (filterBy (fun i _ => i == 0) id_divs 0)
  let c2 := filter_id.length == 1
  let c3 := (isStr h filter_id "id" "id")
  let filter_id := (filterBy (fun _ x => is h [x] "#id" == some true) id_divs 0)
  let c4 := filter_id.length == 1
  let c5 := (isStr h filter_id "id" "id")
  let filter_nested := (filterBy (fun _ x => (has h [x] "[class|='outer']").length > 0) id_divs 0)
  let c6 := filter_nested.length == 1
  let c7 := (isStr h filter_nested "id" "nested")
  [c1, c2, c3, c4, c5, c6, c7]

#guard test_method_filter_by.all id

/-- `tests/method.rs:145 test_method_filter_in`. -/
def test_method_filter_in : List Bool :=
  let h := load r##"
  <html>
    <head></head>
    <body>
      <div id="id">
        <div class="class">class-div</div>
        <p>
          p-tag
        </p>
      </div>
      <div id="nested">
        <div class="outer-div-1">
          <div class="inner-div-1-1">inner-div-1-1</div>
          <div class="inner-div-1-2">inner-div-<span>1</span>-<span>2</span></div>
        </div>
        <div class="outer-div-2">
          <div class="inner-div-2-1"></div>
          <div class="inner-div-2-2"></div>
        </div>
      </div>
    </body>
  </html>
"##
  let root := [0]
  let id_divs := (find h root "div[id]")
  let id_ele := (filter h id_divs "#id")
  let filter_id := (filterIn id_divs id_ele)
  let c1 := filter_id.length == 1
  let c2 := (isStr h filter_id "id" "id")
  let nested_ele := (eqAt (notIn id_divs id_ele) 0)
  let filter_nested := (filterIn id_divs nested_ele)
  let c3 := filter_nested.length == 1
  let c4 := (isStr h filter_nested "id" "nested")
  [c1, c2, c3, c4]

#guard test_method_filter_in.all id

/-- `tests/method.rs:162 test_method_not`. -/
def test_method_not : List Bool :=
  let h := load r##"
  <html>
    <head></head>
    <body>
      <div id="id">
        <div class="class">class-div</div>
        <p>
          p-tag
        </p>
      </div>
      <div id="nested">
        <div class="outer-div-1">
          <div class="inner-div-1-1">inner-div-1-1</div>
          <div class="inner-div-1-2">inner-div-<span>1</span>-<span>2</span></div>
        </div>
        <div class="outer-div-2">
          <div class="inner-div-2-1"></div>
          <div class="inner-div-2-2"></div>
        </div>
      </div>
    </body>
  </html>
"##
  let root := [0]
  let id_divs := (find h root "div[id]")
  let id_ele := (filter h id_divs "#id")
  let c1 := (not h id_divs "p").length == id_divs.length
  let not_id := (not h id_ele "#id")
  let c2 := not_id.length == 0
  let not_has_id := (not h id_divs "[id]")
  let c3 := not_has_id.length == 0
  [c1, c2, c3]

#guard test_method_not.all id

/-- `tests/method.rs:178 test_method_not_by`. -/
def test_method_not_by : List Bool :=
  let h := load r##"
  <html>
    <head></head>
    <body>
      <div id="id">
        <div class="class">class-div</div>
        <p>
          p-tag
        </p>
      </div>
      <div id="nested">
        <div class="outer-div-1">
          <div class="inner-div-1-1">inner-div-1-1</div>
          <div class="inner-div-1-2">inner-div-<span>1</span>-<span>2</span></div>
        </div>
        <div class="outer-div-2">
          <div class="inner-div-2-1"></div>
          <div class="inner-div-2-2"></div>
        </div>
      </div>
    </body>
  </html>
"##
  let root := [0]
  let id_divs := (find h root "div[id]")
  let id_ele := (filter h id_divs "#id")
  let not_id := (notBy (fun _ x => isStr h [x] "id" "id") id_ele 0)
  let c1 := not_id.length == 0
  let not_has_id := (notBy (fun _ x => (attr h [x] "id").isSome) id_divs 0)
  let c2 := not_has_id.length == 0
  [c1, c2]

#guard test_method_not_by.all id

/-- `tests/method.rs:192 test_method_not_in`. -/
def test_method_not_in : List Bool :=
  let h := load r##"
  <html>
    <head></head>
    <body>
      <div id="id">
        <div class="class">class-div</div>
        <p>
          p-tag
        </p>
      </div>
      <div id="nested">
        <div class="outer-div-1">
          <div class="inner-div-1-1">inner-div-1-1</div>
          <div class="inner-div-1-2">inner-div-<span>1</span>-<span>2</span></div>
        </div>
        <div class="outer-div-2">
          <div class="inner-div-2-1"></div>
          <div class="inner-div-2-2"></div>
        </div>
      </div>
    </body>
  </html>
"##
  let root := [0]
  let id_divs := (find h root "div[id]")
  let id_ele := (filter h id_divs "#id")
  let not_id := (notIn id_ele id_divs)
  let c1 := not_id.length == 0
  let not_id := (filter h (notIn id_divs id_ele) "#id")
  let c2 := not_id.length == 0
  [c1, c2]

#guard test_method_not_in.all id

/-- `tests/method.rs:206 test_method_is`. -/
def test_method_is : List Bool :=
  let h := load r##"
  <html>
    <head></head>
    <body>
      <div id="id">
        <div class="class">class-div</div>
        <p>
          p-tag
        </p>
      </div>
      <div id="nested">
        <div class="outer-div-1">
          <div class="inner-div-1-1">inner-div-1-1</div>
          <div class="inner-div-1-2">inner-div-<span>1</span>-<span>2</span></div>
        </div>
        <div class="outer-div-2">
          <div class="inner-div-2-1"></div>
          <div class="inner-div-2-2"></div>
        </div>
      </div>
    </body>
  </html>
"##
  let root := [0]
  let id_divs := (find h root "div[id]")
  let id_ele := (filter h id_divs "#id")
  let nested := (filter h id_divs "#nested")
  let c1 := (is h nested "#id~#nested" == some true)
  let c2 := (is h nested "div+#nested" == some true)
  let c3 := (is h nested "body > #nested" == some true)
  let is_id := (is h id_ele "body #id" == some true)
  let c4 := is_id
  let is_id := (is h id_divs "body > #id" == some true)
  let c5 := is_id
  let is_id := (is h id_divs "div[id='id']" == some true)
  let c6 := is_id
  [c1, c2, c3, c4, c5, c6]

#guard test_method_is.all id

/-- `tests/method.rs:227 test_method_is_by`. -/
def test_method_is_by : List Bool :=
  let h := load r##"
  <html>
    <head></head>
    <body>
      <div id="id">
        <div class="class">class-div</div>
        <p>
          p-tag
        </p>
      </div>
      <div id="nested">
        <div class="outer-div-1">
          <div class="inner-div-1-1">inner-div-1-1</div>
          <div class="inner-div-1-2">inner-div-<span>1</span>-<span>2</span></div>
        </div>
        <div class="outer-div-2">
          <div class="inner-div-2-1"></div>
          <div class="inner-div-2-2"></div>
        </div>
      </div>
    </body>
  </html>
"##
  let root := [0]
  let id_divs := (find h root "div[id]")
  let id_ele := (filter h id_divs "#id")
  let is_id := (isBy (fun _ x => isStr h [x] "id" "id") id_divs 0)
  let c1 := is_id
  let is_id := (isBy (fun _ x => (attr h [x] "id").isSome) id_ele 0)
  let c2 := is_id
  let not_has_id := (!(isBy (fun _ x => (attr h [x] "id").isSome) (find h root "div:not([id])") 0))
  let c3 := not_has_id
  [c1, c2, c3]

#guard test_method_is_by.all id

/-- `tests/method.rs:245 test_method_is_in`. -/
def test_method_is_in : List Bool :=
  let h := load r##"
  <html>
    <head></head>
    <body>
      <div id="id">
        <div class="class">class-div</div>
        <p>
          p-tag
        </p>
      </div>
      <div id="nested">
        <div class="outer-div-1">
          <div class="inner-div-1-1">inner-div-1-1</div>
          <div class="inner-div-1-2">inner-div-<span>1</span>-<span>2</span></div>
        </div>
        <div class="outer-div-2">
          <div class="inner-div-2-1"></div>
          <div class="inner-div-2-2"></div>
        </div>
      </div>
    </body>
  </html>
"##
  let root := [0]
  let id_divs := (find h root "div[id]")
  let id_ele := (filter h id_divs "#id")
  let is_id := (isIn id_ele id_divs)
  let c1 := is_id
  let is_id := (isIn id_divs id_ele)
  let c2 := is_id
  let is_not_id := (!(isIn id_divs (not h (find h root "div") "[id]")))
  let c3 := is_not_id
  [c1, c2, c3]

#guard test_method_is_in.all id

/-- `tests/method.rs:262 test_method_is_all`. -/
def test_method_is_all : List Bool :=
  let h := load r##"
  <html>
    <head></head>
    <body>
      <div id="id">
        <div class="class">class-div</div>
        <p>
          p-tag
        </p>
      </div>
      <div id="nested">
        <div class="outer-div-1">
          <div class="inner-div-1-1">inner-div-1-1</div>
          <div class="inner-div-1-2">inner-div-<span>1</span>-<span>2</span></div>
        </div>
        <div class="outer-div-2">
          <div class="inner-div-2-1"></div>
          <div class="inner-div-2-2"></div>
        </div>
      </div>
    </body>
  </html>
"##
  let root := [0]
  let id_divs := (find h root "div[id]")
  let id_ele := (filter h id_divs "#id")
  let is_all_id := (isAll h id_ele "body #id" == some true)
  let c1 := is_all_id
  let is_not_all_id := (!(isAll h id_divs "body > #id" == some true))
  let c2 := is_not_all_id
  let is_not_all_id := (!(isAll h id_divs "div[id='id']" == some true))
  let c3 := is_not_all_id
  [c1, c2, c3]

#guard test_method_is_all.all id

/-- `tests/method.rs:279 test_method_is_all_by`. -/
def test_method_is_all_by : List Bool :=
  let h := load r##"
  <html>
    <head></head>
    <body>
      <div id="id">
        <div class="class">class-div</div>
        <p>
          p-tag
        </p>
      </div>
      <div id="nested">
        <div class="outer-div-1">
          <div class="inner-div-1-1">inner-div-1-1</div>
          <div class="inner-div-1-2">inner-div-<span>1</span>-<span>2</span></div>
        </div>
        <div class="outer-div-2">
          <div class="inner-div-2-1"></div>
          <div class="inner-div-2-2"></div>
        </div>
      </div>
    </body>
  </html>
"##
  let root := [0]
  let id_divs := (find h root "div[id]")
  let id_ele := (filter h id_divs "#id")
  let is_id := (isAllBy (fun i _ => i == 0) id_ele 0)
  let c1 := is_id
  let is_id := (isAllBy (fun _ x => isStr h [x] "id" "id") id_divs 0)
  let c2 := (!is_id)
  let is_id := (isAllBy (fun _ x => tag h x == "DIV") id_divs 0)
  let c3 := is_id
  [c1, c2, c3]

#guard test_method_is_all_by.all id

/-- `tests/method.rs:296 test_method_is_all_in`. -/
def test_method_is_all_in : List Bool :=
  let h := load r##"
  <html>
    <head></head>
    <body>
      <div id="id">
        <div class="class">class-div</div>
        <p>
          p-tag
        </p>
      </div>
      <div id="nested">
        <div class="outer-div-1">
          <div class="inner-div-1-1">inner-div-1-1</div>
          <div class="inner-div-1-2">inner-div-<span>1</span>-<span>2</span></div>
        </div>
        <div class="outer-div-2">
          <div class="inner-div-2-1"></div>
          <div class="inner-div-2-2"></div>
        </div>
      </div>
    </body>
  </html>
"##
  let root := [0]
  let id_divs := (find h root "div[id]")
  let id_ele := (filter h id_divs "#id")
  let is_all_has_id := (isAllIn id_ele id_divs)
  let c1 := is_all_has_id
  let is_all_id := (isAllIn id_divs id_ele)
  let c2 := (!is_all_id)
  let is_all_div := (isAllIn id_divs (find h root "div"))
  let c3 := is_all_div
  let c4 := (!(isAllIn id_divs (find h root "#nested, #nested div")))
  [c1, c2, c3, c4]

#guard test_method_is_all_in.all id

/-- `tests/method.rs:315 test_method_has`. -/
def test_method_has : List Bool :=
  let h := load r##"
  <html>
    <head></head>
    <body>
      <div id="id">
        <div class="class">class-div</div>
        <p>
          p-tag
        </p>
      </div>
      <div id="nested">
        <div class="outer-div-1">
          <div class="inner-div-1-1">inner-div-1-1</div>
          <div class="inner-div-1-2">inner-div-<span>1</span>-<span>2</span></div>
        </div>
        <div class="outer-div-2">
          <div class="inner-div-2-1"></div>
          <div class="inner-div-2-2"></div>
        </div>
      </div>
    </body>
  </html>
"##
  let root := [0]
  let id_divs := (find h root "div[id]")
  let id_ele := (filter h id_divs "#id")
  let has_class_div := (has h id_ele "div.class")
  let c1 := has_class_div.length == 1
  let nested := (has h id_divs "[class|='outer']")
  let c2 := nested.length == 1
  let c3 := (has h nested "div.class").length == 0
  let nested := (has h id_divs "[class|='inner']")
  let c4 := nested.length == 1
  let be_id_ele := (has h id_divs "div+p")
  let c5 := (isAllIn be_id_ele id_ele)
  [c1, c2, c3, c4, c5]

#guard test_method_has.all id

/-- `tests/method.rs:335 test_method_has_in`. -/
def test_method_has_in : List Bool :=
  let h := load r##"
  <html>
    <head></head>
    <body>
      <div id="id">
        <div class="class">class-div</div>
        <p>
          p-tag
        </p>
      </div>
      <div id="nested">
        <div class="outer-div-1">
          <div class="inner-div-1-1">inner-div-1-1</div>
          <div class="inner-div-1-2">inner-div-<span>1</span>-<span>2</span></div>
        </div>
        <div class="outer-div-2">
          <div class="inner-div-2-1"></div>
          <div class="inner-div-2-2"></div>
        </div>
      </div>
    </body>
  </html>
"##
  let root := [0]
  let id_divs := (find h root "div[id]")
  let id_ele := (filter h id_divs "#id")
  let c1 := id_divs.length == 2
  let has_class_div := (hasIn h id_ele (find h root "div.class"))
  let c2 := has_class_div.length == 1
  let nested := (hasIn h id_divs (find h root "[class|='outer']"))
  let c3 := nested.length == 1
  let c4 := (hasIn h nested (find h root "div.class")).length == 0
  let nested := (hasIn h id_divs (find h root "[class|='inner']"))
  let c5 := nested.length == 1
  let be_id_ele := (hasIn h id_divs (find h root "div+p"))
  let c6 := (isAllIn be_id_ele id_ele)
  [c1, c2, c3, c4, c5, c6]

#guard test_method_has_in.all id

/-- `tests/method.rs:357 test_method_children`. -/
def test_method_children : List Bool :=
  let h := load r##"
  <html>
    <head></head>
    <body>
      <div id="id">
        <div class="class">class-div</div>
        <p>
          p-tag
        </p>
      </div>
      <div id="nested">
        <div class="outer-div-1">
          <div class="inner-div-1-1">inner-div-1-1</div>
          <div class="inner-div-1-2">inner-div-<span>1</span>-<span>2</span></div>
        </div>
        <div class="outer-div-2">
          <div class="inner-div-2-1"></div>
          <div class="inner-div-2-2"></div>
        </div>
      </div>
    </body>
  </html>
"##
  let root := [0]
  let id_ele := (find h root "#id")
  let childs := (children h id_ele "")
  let c1 := childs.length == 2
  let child_divs := (children h id_ele "div")
  let c2 := child_divs.length == 1
  let child_p := (children h id_ele "~p")
  let c3 := child_p.length == 1
  let child_p := (children h id_ele "+p")
  let c4 := child_p.length == 1
  let child_div := (children h id_ele "~div")
  let c5 := child_div.length == 0
  let nested := (find h root "#nested")
  let nested_childs := (children h nested "")
  let c6 := nested_childs.length == 2
  let nested_sub_childs := (children h nested "div > div")
  let c7 := nested_sub_childs.length == 4
  [c1, c2, c3, c4, c5, c6, c7]

#guard test_method_children.all id

/-- `tests/method.rs:385 test_method_parent`. -/
def test_method_parent : List Bool :=
  let h := load r##"
  <html>
    <head></head>
    <body>
      <div id="id">
        <div class="class">class-div</div>
        <p>
          p-tag
        </p>
      </div>
      <div id="nested">
        <div class="outer-div-1">
          <div class="inner-div-1-1">inner-div-1-1</div>
          <div class="inner-div-1-2">inner-div-<span>1</span>-<span>2</span></div>
        </div>
        <div class="outer-div-2">
          <div class="inner-div-2-1"></div>
          <div class="inner-div-2-2"></div>
        </div>
      </div>
    </body>
  </html>
"##
  let root := [0]
  let id_ele := (find h root "#id")
  let childs := (children h id_ele "")
  let parent' := (parent h childs "")
  let c1 := parent'.length == 1
  let parent' := (parent h childs "#notId")
  let c2 := parent'.length == 0
  let still_div := (parent h childs "#id > div")
  let c3 := still_div.length == 1
  [c1, c2, c3]

#guard test_method_parent.all id

/-- `tests/method.rs:402 test_method_parents_until`. -/
def test_method_parents_until : List Bool :=
  let html' := r##"
  <ul id="one" class="level-1">
    <li class="item-i">I</li>
    <li id="ii" class="item-ii">II
      <ul class="level-2">
        <li class="item-a">A</li>
        <li class="item-b">B
          <ul class="level-3">
            <li class="item-1">1</li>
            <li class="item-2">2</li>
            <li class="item-3">3</li>
          </ul>
        </li>
        <li class="item-c">C</li>
      </ul>
    </li>
    <li class="item-iii">III</li>
  </ul>
  "##
  let h := load html'
  let root := [0]
  let item_1 := (find h root ".item-1")
  let to_level_3 := (parentsUntil h item_1 ".level-3" "" false)
  let c1 := to_level_3.length == 0
  let to_level_3_contains := (parentsUntil h item_1 ".level-3" "" true)
  let c2 := to_level_3_contains.length == 1
  let to_level_1 := (parentsUntil h item_1 ".level-1" "" false)
  let c3 := to_level_1.length == 4
  let c4 := (hasClass h (eqAt to_level_1 0) "item-ii" == some true)
  let to_level_1_items := (parentsUntil h item_1 ".level-1" "li" false)
  let c5 := to_level_1_items.length == 2
  [c1, c2, c3, c4, c5]

#guard test_method_parents_until.all id

/-- `tests/method.rs:441 test_method_parents`. -/
def test_method_parents : List Bool :=
  let h := load r##"
  <html>
    <head></head>
    <body>
      <div id="id">
        <div class="class">class-div</div>
        <p>
          p-tag
        </p>
      </div>
      <div id="nested">
        <div class="outer-div-1">
          <div class="inner-div-1-1">inner-div-1-1</div>
          <div class="inner-div-1-2">inner-div-<span>1</span>-<span>2</span></div>
        </div>
        <div class="outer-div-2">
          <div class="inner-div-2-1"></div>
          <div class="inner-div-2-2"></div>
        </div>
      </div>
    </body>
  </html>
"##
  let root := [0]
  let id_ele := (find h root "#id")
  let childs := (children h id_ele "")
  let body := (parents h childs "body")
  let c1 := body.length == 1
  [c1]

#guard test_method_parents.all id

/-- `tests/method.rs:453 test_method_prev`. -/
def test_method_prev : List Bool :=
  let html' := r##"
  <dl>
    <dt id="term-1">term 1</dt>
      <dd>definition 1-a</dd>
      <dd>definition 1-b</dd>
      <dd>definition 1-c</dd>
      <dd>definition 1-d</dd>
    <dt id="term-2">term 2</dt>
      <dd>definition 2-a</dd>
      <dd>definition 2-b</dd>
      <dd>definition 2-c</dd>
    <dt id="term-3">term 3</dt>
      <dd>definition 3-a</dd>
      <dd>definition 3-b</dd>
  </dl>
  "##
  let h := load html'
  let root := [0]
  let term_with_id := (find h root "[id^='term']")
  let c1 := term_with_id.length == 3
  let term_with_id_prev := (prev h term_with_id "")
  let c2 := term_with_id_prev.length == 2
  let term_with_id_prev := (prev h term_with_id "dt")
  let c3 := term_with_id_prev.length == 0
  [c1, c2, c3]

#guard test_method_prev.all id

/-- `tests/method.rs:483 test_method_next`. -/
def test_method_next : List Bool :=
  let html' := r##"
  <dl>
    <dt id="term-1">term 1</dt>
      <dd>definition 1-a</dd>
      <dd>definition 1-b</dd>
      <dd>definition 1-c</dd>
      <dd>definition 1-d</dd>
    <dt id="term-2">term 2</dt>
      <dd>definition 2-a</dd>
      <dd>definition 2-b</dd>
      <dd>definition 2-c</dd>
    <dt id="term-3">term 3</dt>
      <dd>definition 3-a</dd>
      <dd>definition 3-b</dd>
  </dl>
  "##
  let h := load html'
  let root := [0]
  let term_with_id := (find h root "[id^='term']")
  let c1 := term_with_id.length == 3
  let term_with_id_next := (next h term_with_id "")
  let c2 := term_with_id_next.length == 3
  let term_with_id_next := (next h term_with_id "dd")
  let c3 := term_with_id_next.length == 3
  let term_with_id_next := (next h term_with_id "dt")
  let c4 := term_with_id_next.length == 0
  [c1, c2, c3, c4]

#guard test_method_next.all id

/-- `tests/method.rs:515 test_method_next_all`. -/
def test_method_next_all : List Bool :=
  let html' := r##"
  <dl>
    <dt id="term-1">term 1</dt>
      <dd>definition 1-a</dd>
      <dd>definition 1-b</dd>
      <dd>definition 1-c</dd>
      <dd>definition 1-d</dd>
    <dt id="term-2">term 2</dt>
      <dd>definition 2-a</dd>
      <dd>definition 2-b</dd>
      <dd>definition 2-c</dd>
    <dt id="term-3">term 3</dt>
      <dd>definition 3-a</dd>
      <dd>definition 3-b</dd>
  </dl>
  "##
  let h := load html'
  let root := [0]
  let id_term_2 := (find h root "#term-2")
  let item_after_term_2 := (nextAll h id_term_2 "")
  let c1 := item_after_term_2.length == 6
  let dd_after_term_2 := (nextAll h id_term_2 "dd")
  let c2 := dd_after_term_2.length == 5
  let dt_after_term_2 := (nextAll h id_term_2 "dt")
  let c3 := dt_after_term_2.length == 1
  [c1, c2, c3]

#guard test_method_next_all.all id

/-- `tests/method.rs:547 test_method_prev_all`. -/
def test_method_prev_all : List Bool :=
  let html' := r##"
  <dl>
    <dt id="term-1">term 1</dt>
      <dd>definition 1-a</dd>
      <dd>definition 1-b</dd>
      <dd>definition 1-c</dd>
      <dd>definition 1-d</dd>
    <dt id="term-2">term 2</dt>
      <dd>definition 2-a</dd>
      <dd>definition 2-b</dd>
      <dd>definition 2-c</dd>
    <dt id="term-3">term 3</dt>
      <dd>definition 3-a</dd>
      <dd>definition 3-b</dd>
  </dl>
  "##
  let h := load html'
  let root := [0]
  let id_term_2 := (find h root "#term-2")
  let item_before_term_2 := (prevAll h id_term_2 "")
  let c1 := item_before_term_2.length == 5
  let dd_before_term_2 := (prevAll h id_term_2 "dd")
  let c2 := dd_before_term_2.length == 4
  let dt_before_term_2 := (prevAll h id_term_2 "dt")
  let c3 := dt_before_term_2.length == 1
  [c1, c2, c3]

#guard test_method_prev_all.all id

/-- `tests/method.rs:579 test_method_prev_until`. -/
def test_method_prev_until : List Bool :=
  let html' := r##"
  <dl>
    <dt id="term-1">term 1</dt>
      <dd>definition 1-a</dd>
      <dd>definition 1-b</dd>
      <dd>definition 1-c</dd>
      <dd>definition 1-d</dd>
    <dt id="term-2">term 2</dt>
      <dd>definition 2-a</dd>
      <dd>definition 2-b</dd>
      <dd>definition 2-c</dd>
    <dt id="term-3">term 3</dt>
      <dd>definition 3-a</dd>
      <dd>definition 3-b</dd>
  </dl>
  "##
  let h := load html'
  let root := [0]
  let id_term_2 := (find h root "#term-2")
  let dd_before_term_2 := (prevUntil h id_term_2 "dt" "" false)
  let c1 := dd_before_term_2.length == 4
  let c2 := (text h (eqAt dd_before_term_2 0)) == "definition 1-a"
  let dd_and_self_before_term_2 := (prevUntil h id_term_2 "dt" "" true)
  let c3 := dd_and_self_before_term_2.length == 5
  let id_term_3 := (find h root "#term-3")
  let filter_before_term_3 := (prevUntil h id_term_3 "#term-1" ":contains('1')" true)
  let c4 := filter_before_term_3.length == 5
  [c1, c2, c3, c4]

#guard test_method_prev_until.all id

/-- `tests/method.rs:612 test_method_next_until`. -/
def test_method_next_until : List Bool :=
  let html' := r##"
  <dl>
    <dt id="term-1">term 1</dt>
      <dd>definition 1-a</dd>
      <dd>definition 1-b</dd>
      <dd>definition 1-c</dd>
      <dd>definition 1-d</dd>
    <dt id="term-2">term 2</dt>
      <dd>definition 2-a</dd>
      <dd>definition 2-b</dd>
      <dd>definition 2-c</dd>
    <dt id="term-3">term 3</dt>
      <dd>definition 3-a</dd>
      <dd>definition 3-b</dd>
  </dl>
  "##
  let h := load html'
  let root := [0]
  let id_term_2 := (find h root "#term-2")
  let wrong_dd_after_term_2 := (nextUntil h id_term_2 ":dt" "" false)
  let c1 := wrong_dd_after_term_2.length == 0
  let dd_after_term_2 := (nextUntil h id_term_2 "dt" "" false)
  let c2 := dd_after_term_2.length == 3
  let dd_and_self_after_term_2 := (nextUntil h id_term_2 "dt" "" true)
  let c3 := dd_and_self_after_term_2.length == 4
  let id_term_1 := (find h root "#term-1")
  let filter_after_term_1 := (nextUntil h id_term_1 "#term-3" ":contains('2')" false)
  let c4 := filter_after_term_1.length == 4
  let wrong_filter_after_term_1 := (nextUntil h id_term_1 "#term-3" ":gt('2')" false)
  let c5 := wrong_filter_after_term_1.length == 0
  [c1, c2, c3, c4, c5]

#guard test_method_next_until.all id

/-- `tests/method.rs:651 test_method_find_closest`. -/
def test_method_find_closest : List Bool :=
  let html' := r##"
  <ul id="one" class="level-1">
    <li class="item-i">I</li>
    <li id="ii" class="item-ii">II
      <ul class="level-2">
        <li class="item-a">A</li>
        <li class="item-b">B
          <ul class="level-3">
            <li class="item-1">1</li>
            <li class="item-2">2</li>
            <li class="item-3">3</li>
          </ul>
        </li>
        <li class="item-c">C</li>
      </ul>
    </li>
    <li class="item-iii">III</li>
  </ul>
  "##
  let h := load html'
  let root := [0]
  let closest_ul := (closest h (find h root "li.item-a") "ul")
  let c1 := (isStr h closest_ul "class" "level-2")
  let closest_self := (closest h (find h root "li.item-a") "li")
  let c2 := (isStr h closest_self "class" "item-a")
  [c1, c2]

#guard test_method_find_closest.all id

/-- `tests/method.rs:680 test_method_closest`. -/
def test_method_closest : List Bool :=
  let h := load r##"
	    <div class="closest">
	      <p>
	        <a class="closest">aaa</a>
          <b class="closest">bbb</b>
          <c>ccc</c>
	      </p>
	      <a>top-aaaa</a>
	    </div>
	"##
  let root := [0]
  let abc := (find h root "a,b,c")
  let c1 := abc.length == 4
  let c2 := (closest h abc ":first").length == 0
  let c3 := (closest h abc "").length == 0
  let closest' := (closest h abc ".closest")
  let c4 := closest'.length == 3
  let c5 := (tag h ((eqAt closest' 0).getD 0 0)) == "DIV"
  [c1, c2, c3, c4, c5]

#guard test_method_closest.all id

/-- `tests/method.rs:706 test_method_siblings`. -/
def test_method_siblings : List Bool :=
  let h := load r##"
  <html>
    <head></head>
    <body>
      <div id="id">
        <div class="class">class-div</div>
        <p>
          p-tag
        </p>
      </div>
      <div id="nested">
        <div class="outer-div-1">
          <div class="inner-div-1-1">inner-div-1-1</div>
          <div class="inner-div-1-2">inner-div-<span>1</span>-<span>2</span></div>
        </div>
        <div class="outer-div-2">
          <div class="inner-div-2-1"></div>
          <div class="inner-div-2-2"></div>
        </div>
      </div>
    </body>
  </html>
"##
  let root := [0]
  let divs := (find h root "div")
  let c1 := divs.length == 9
  let siblings' := (siblings h divs "div")
  let c2 := siblings'.length == 8
  let h := load r##"
	    <div class="closest">
	      <p><a class="closest">aaa</a><b class="closest">bbb</b><c>ccc</c></p>
	      <a>top-aaaa</a>
	    </div>
	"##
  let root := [0]
  let abc := (find h root "a,b,c")
  let ele_c := (filter h abc "c")
  let c3 := (siblings h ele_c "").length == 2
  let ele_a := (filter h abc "a")
  let c4 := (siblings h ele_a "").length == 3
  let siblings' := (siblings h abc "")
  let c5 := siblings'.length == 4
  let c6 := (tag h ((eqAt siblings' 0).getD 0 0)) == "P"
  let c7 := (siblings h abc ":nono").length == 0
  let siblings' := (siblings h abc ".closest")
  let c8 := siblings'.length == 2
  let c9 := (tag h ((eqAt siblings' 0).getD 0 0)) == "A"
  let html' := "<ul>" ++ String.join (List.replicate 60 "<li></li>") ++ "</ul>"
  let h := load html'
  let root := [0]
  let ul := (find h root "ul")
  let nth_2n_child := (find h ul ":nth-child(2n)")
  let c10 := (siblings h nth_2n_child "").length == 60
  [c1, c2, c3, c4, c5, c6, c7, c8, c9, c10]

#guard test_method_siblings.all id

/-- `tests/method.rs:749 test_content_text`. -/
def test_content_text : List Bool :=
  let h := load r##"
  <html>
    <head></head>
    <body>
      <div id="id">
        <div class="class">class-div</div>
        <p>
          p-tag
        </p>
      </div>
      <div id="nested">
        <div class="outer-div-1">
          <div class="inner-div-1-1">inner-div-1-1</div>
          <div class="inner-div-1-2">inner-div-<span>1</span>-<span>2</span></div>
        </div>
        <div class="outer-div-2">
          <div class="inner-div-2-1"></div>
          <div class="inner-div-2-2"></div>
        </div>
      </div>
    </body>
  </html>
"##
  let root := [0]
  let inner_div_1_1 := (find h root "div.inner-div-1-1")
  let inner_div_1_1_text := (text h inner_div_1_1)
  let c1 := inner_div_1_1_text == "inner-div-1-1"
  let inner_div_1_2 := (find h root "div.inner-div-1-2")
  let inner_div_1_2_text := (text h inner_div_1_2)
  let c2 := (decide ((children h inner_div_1_2 "").length > 0))
  let c3 := inner_div_1_2_text == "inner-div-1-2"
  [c1, c2, c3]

#guard test_content_text.all id

/-- `tests/method.rs:765 test_method_eq`. -/
def test_method_eq : List Bool :=
  let html' := r##"
  <dl>
    <dt id="term-1">term 1</dt>
      <dd>definition 1-a</dd>
      <dd>definition 1-b</dd>
      <dd>definition 1-c</dd>
      <dd>definition 1-d</dd>
    <dt id="term-2">term 2</dt>
      <dd>definition 2-a</dd>
      <dd>definition 2-b</dd>
      <dd>definition 2-c</dd>
    <dt id="term-3">term 3</dt>
      <dd>definition 3-a</dd>
      <dd>definition 3-b</dd>
  </dl>
  "##
  let h := load html'
  let root := [0]
  let term_with_id := (find h root "[id^='term']")
  let c1 := term_with_id.length == 3
  let term_id_1 := (eqAt term_with_id 0)
  let c2 := term_id_1.length == 1
  let c3 := (is h term_id_1 "#term-1" == some true)
  let c4 := (isIn term_id_1 (firstE term_with_id))
  let c5 := (is h (eqAt term_with_id 2) "#term-3" == some true)
  let c6 := (isIn (eqAt term_with_id 2) (got bad (lastE term_with_id)))
  let c7 := (eqAt term_with_id 3).isEmpty
  [c1, c2, c3, c4, c5, c6, c7]

#guard test_method_eq.all id

/-- `tests/method.rs:798 test_method_slice`. -/
def test_method_slice : List Bool :=
  let html' := r##"
  <dl>
    <dt id="term-1">term 1</dt>
      <dd>definition 1-a</dd>
      <dd>definition 1-b</dd>
      <dd>definition 1-c</dd>
      <dd>definition 1-d</dd>
    <dt id="term-2">term 2</dt>
      <dd>definition 2-a</dd>
      <dd>definition 2-b</dd>
      <dd>definition 2-c</dd>
    <dt id="term-3">term 3</dt>
      <dd>definition 3-a</dd>
      <dd>definition 3-b</dd>
  </dl>
  "##
  let h := load html'
  let root := [0]
  let term_with_id := (find h root "[id^='term']")
  let c1 := term_with_id.length == 3
  let term_id_slice := (got bad (sliceE term_with_id (.included 1) (.unbounded)))
  let c2 := term_id_slice.length == 2
  let term_id_slice := (got bad (sliceE term_with_id (.included 1) (.excluded 5)))
  let c3 := term_id_slice.length == 2
  let term_id_slice := (got bad (sliceE term_with_id (.unbounded) (.excluded 3)))
  let c4 := term_id_slice.length == 3
  let term_id_slice := (got bad (sliceE term_with_id (.unbounded) (.excluded 5)))
  let c5 := term_id_slice.length == 3
  let term_id_slice := (got bad (sliceE term_with_id (.included 3) (.unbounded)))
  let c6 := term_id_slice.length == 0
  [c1, c2, c3, c4, c5, c6]

#guard test_method_slice.all id

/-- `tests/method.rs:837 test_method_add`. -/
def test_method_add : List Bool :=
  let html' := r##"
  <dl>
    <dt id="term-1">term 1</dt>
      <dd>definition 1-a</dd>
      <dd>definition 1-b</dd>
      <dd>definition 1-c</dd>
      <dd>definition 1-d</dd>
    <dt id="term-2">term 2</dt>
      <dd>definition 2-a</dd>
      <dd>definition 2-b</dd>
      <dd>definition 2-c</dd>
    <dt id="term-3">term 3</dt>
      <dd>definition 3-a</dd>
      <dd>definition 3-b</dd>
  </dl>
  "##
  let h := load html'
  let root := [0]
  let dl := (find h root "dl")
  let dt := (children h dl "dt")
  let dd := (children h dl "dd")
  let dl_childs := (got bad (addElems h dt dd))
  let c1 := (children h dl "").length == dl_childs.length
  let c2 := ((is h (eqAt dl_childs 0) "dt" == some true) && ((attr h (eqAt dl_childs 0) "id").any fun v => v.isStr "term-1".toList))
  let c3 := ((is h (eqAt dl_childs 1) "dd" == some true) && (((text h (eqAt dl_childs 1)).splitOn "1-a").length > 1))
  let c4 := ((is h (got bad (lastE dl_childs)) "dd" == some true) && (((text h (got bad (lastE dl_childs))).splitOn "3-b").length > 1))
  let another_dl_childs := (got bad (addElems h dl_childs ([] : List Nat)))
  let c5 := another_dl_childs.length == dl_childs.length
  [c1, c2, c3, c4, c5]

#guard test_method_add.all id

/-- `tests/method.rs:870 test_method_for_root`. -/
def test_method_for_root : List Bool :=
  let html' := r##"
  <dl>
    <dt id="term-1">term 1</dt>
      <dd>definition 1-a</dd>
      <dd>definition 1-b</dd>
      <dd>definition 1-c</dd>
      <dd>definition 1-d</dd>
    <dt id="term-2">term 2</dt>
      <dd>definition 2-a</dd>
      <dd>definition 2-b</dd>
      <dd>definition 2-c</dd>
    <dt id="term-3">term 3</dt>
      <dd>definition 3-a</dd>
      <dd>definition 3-b</dd>
  </dl>
  "##
  let h := load html'
  let root := [0]
  let c1 := (prevAll h root "").length == 0
  let c2 := (nextAll h root "").length == 0
  let c3 := (siblings h [(root.getD 0 0)] "").length == 0
  let c4 := (parent h root "").length == 0
  [c1, c2, c3, c4]

#guard test_method_for_root.all id

/-- `tests/method.rs:896 test_method_contains`. -/
def test_method_contains : List Bool :=
  let html' := r##"
    <dl>
      <dt id="term-1">term 1</dt>
        <dd>definition 1-a</dd>
        <dd>definition 1-b</dd>
        <dd>definition 1-c</dd>
        <dd>definition 1-d</dd>
      <dt id="term-2">term 2</dt>
        <dd>definition 2-a</dd>
        <dd>definition 2-b</dd>
        <dd>definition 2-c</dd>
      <dt id="term-3">term 3</dt>
        <dd>definition 3-a</dd>
        <dd>definition 3-b</dd>
    </dl>
  "##
  let h := load html'
  let root := [0]
  let dl := (find h root "dl")
  let childs := (children h dl "")
  let c1 := (got false (containsQ h dl (childs.getD 0 0) .children))
  let c2 := (got false (containsQ h dl (childs.getD 0 0) .childrenAll))
  let c3 := (got false (containsQ h (eqAt childs 0) (childs.getD 1 0) .next))
  let c4 := (got false (containsQ h (eqAt childs 0) (childs.getD 0 0) .chain))
  let c5 := (got false (containsQ h (eqAt childs 0) (childs.getD 2 0) .nextAll))
  let c6 := (!(got false (containsQ h (eqAt childs 0) (childs.getD 2 0) .next)))
  [c1, c2, c3, c4, c5, c6]

#guard test_method_contains.all id

end Visdom.Conform
