import Verif.Conform.Loader
/-!
# The tests of `/repo/tests/selector.rs` on the model

Tests, not proofs. Every call and every assertion of the 25 tests was translated one for one.
-/
set_option linter.unusedVariables false
namespace Visdom.Conform
open Visdom Spec

/-- `tests/selector.rs:7 test_attribute_selector`. -/
def test_attribute_selector : List Bool :=
  let html' := r##"
  <nav id="lang">
    <a href="#" lang="en">en</a>
    <a href="#" lang="en-UK">en-UK</a>
    <a href="#" lang="english">english</a>
    <a href="#" lang="uk en">uk-en</a>
  </nav>
  "##
  let h := load html'
  let root := [0]
  let lang := (find h root "#lang")
  let links := (children h lang "")
  let equal_en := (filter h links "[lang='en']")
  let c1 := equal_en.length == 1
  let begin_en := (filter h links "[lang^='en']")
  let c2 := begin_en.length == 3
  let end_en := (filter h links "[lang$='en']")
  let c3 := end_en.length == 2
  let appear_en := (filter h links "[lang*='en']")
  let c4 := appear_en.length == 4
  let split_en := (filter h links "[lang|= en]")
  let c5 := split_en.length == 2
  let not_en := (filter h links "[lang!=en]")
  let c6 := not_en.length == 3
  let ws_en := (filter h links "[lang~='en']")
  let c7 := ws_en.length == 2
  let html' := r##"
  <nav id="lang">
    <a href="#" lang>boolean lang</a>
    <a href="#" lang="">empty lang</a>
  </nav>
  "##
  let h := load html'
  let root := [0]
  let lang := (find h root "#lang")
  let c8 := (find h lang "a[lang^='']").length == 0
  let c9 := (find h lang "a[lang$='']").length == 0
  let c10 := (find h lang "a[lang*='']").length == 0
  let c11 := (find h lang "a[lang~='']").length == 0
  let c12 := (find h lang "a[lang^='a']").length == 0
  let c13 := (find h lang "a[lang$='b']").length == 0
  let c14 := (find h lang "a[lang*='c']").length == 0
  let c15 := (find h lang "a[lang~='d']").length == 0
  let c16 := (find h lang "a[lang!='']").length == 0
  let c17 := (find h lang "a[lang!='anything']").length == 2
  let c18 := (find h lang "a[lang='']").length == 2
  let c19 := (find h lang "a[lang]").length == 2
  let c20 := (find h lang "a[lang|='']").length == 2
  [c1, c2, c3, c4, c5, c6, c7, c8, c9, c10, c11, c12, c13, c14, c15, c16, c17, c18, c19, c20]

#guard test_attribute_selector.all id

/-- `tests/selector.rs:66 test_id_selector`. -/
def test_id_selector : List Bool :=
  let html' := r##"
  <nav id="lang">
    <a id="link"></a>
  </nav>
  "##
  let h := load html'
  let root := [0]
  let lang := (find h root "#lang")
  let c1 := lang.length == 1
  let link := (find h root "#link")
  let c2 := link.length == 1
  let c3 := (filter h link "#lang #link").length == 1
  let link := (find h root "#lang #link")
  let c4 := link.length == 1
  let link := (find h root "nav #link")
  let c5 := link.length == 1
  let link := (find h root "#none #link")
  let c6 := link.length == 0
  [c1, c2, c3, c4, c5, c6]

#guard test_id_selector.all id

/-- `tests/selector.rs:92 test_class_selector`. -/
def test_class_selector : List Bool :=
  let html' := r##"
  <nav id="lang">
    <a class="en link"></a>
    <a class="en-US link"></a>
    <span class="en"></span>
    <em class>no class selector</em>
  </nav>
  "##
  let h := load html'
  let root := [0]
  let lang := (find h root "#lang")
  let c1 := (find h lang ".link").length == 2
  let c2 := (find h lang ".en").length == 2
  let c3 := (find h lang ".en.link").length == 1
  let c4 := (find h lang "a.link[class|='en']").length == 1
  [c1, c2, c3, c4]

#guard test_class_selector.all id

/-- `tests/selector.rs:111 test_tagname_selector`. -/
def test_tagname_selector : List Bool :=
  let html' := r##"
    <Div></div>
  "##
  let h := load html'
  let root := [0]
  let div := (find h root "div")
  let c1 := div.length == 1
  let c2 := (tag h (div.getD 0 0)) == "DIV"
  let html' := r##"
    <Form:Item></Form:Item>
  "##
  let h := load html'
  let root := [0]
  let item := (find h root "FORM\\:ITEM")
  let c3 := item.length == 1
  let c4 := (tag h (item.getD 0 0)) == "FORM:ITEM"
  [c1, c2, c3, c4]

#guard test_tagname_selector.all id

/-- `tests/selector.rs:132 test_selector_pseudo_checked`. -/
def test_selector_pseudo_checked : List Bool :=
  let html' := r##"<select><option value="1"></option><option value="2"></option><option value="3"></option></select>"##
  let h := load html'
  let root := [0]
  let select := (find h root "select")
  let options := (find h select "option")
  let c1 := options.length == 3
  let selected_options := (filter h options ":checked")
  let c2 := selected_options.length == 1
  let c3 := (val h selected_options) == "1"
  let selected_options := (find h root "select > option:checked")
  let c4 := selected_options.length == 1
  let c5 := (val h selected_options) == "1"
  let selected_options := (find h select ":checked")
  let c6 := selected_options.length == 1
  let c7 := (val h selected_options) == "1"
  let html' := r##"<select><optgroup><option value="1"></option><option value="2"></option><option value="3"></option></optgroup></select>"##
  let h := load html'
  let root := [0]
  let select := (find h root "select")
  let options := (find h select "option")
  let c8 := options.length == 3
  let selected_options := (filter h options ":checked")
  let c9 := selected_options.length == 0
  let html' := r##"<select><option value="1"></option><option value="2"></option><option value="3" selected="selected"></option></select>"##
  let h := load html'
  let root := [0]
  let select := (find h root "select")
  let options := (find h select "option")
  let c10 := options.length == 3
  let selected_options := (filter h options ":checked")
  let c11 := selected_options.length == 1
  let c12 := (val h selected_options) == "3"
  let html' := r##"<select><option value="0"></option><optgroup><option value="1"></option><option value="2"></option><option value="3"></option></optgroup></select>"##
  let h := load html'
  let root := [0]
  let select := (find h root "select")
  let options := (find h select "option")
  let c13 := options.length == 4
  let selected_options := (filter h options ":checked")
  let c14 := selected_options.length == 1
  let c15 := (val h selected_options) == "0"
  let html' := r##"<select><option value="0"></option><optgroup><option value="1"></option><option value="2"></option><option value="3" selected="selected"></option></optgroup></select>"##
  let h := load html'
  let root := [0]
  let select := (find h root "select")
  let options := (find h select "option")
  let c16 := options.length == 4
  let selected_options := (filter h options ":checked")
  let c17 := selected_options.length == 1
  let c18 := (val h selected_options) == "3"
  let html' := r##"<select multiple><option value="1"></option><option value="2"></option><option value="3"></option></select>"##
  let h := load html'
  let root := [0]
  let select := (find h root "select")
  let options := (find h select "option")
  let c19 := options.length == 3
  let selected_options := (filter h options ":checked")
  let c20 := selected_options.length == 0
  let html' := r##"<select multiple><option value="1"></option><option value="2" selected="selected"></option><option value="3" selected="selected"></option></select>"##
  let h := load html'
  let root := [0]
  let select := (find h root "select")
  let options := (find h select "option")
  let c21 := options.length == 3
  let selected_options := (filter h options ":checked")
  let c22 := selected_options.length == 2
  let c23 := (String.intercalate "," (selected_options.map fun x => val h [x])) == "2,3"
  let html' := r##"<input type="radio" name="radioinput" value="1" /><input type="radio" name="radioinput" value="2" /><input type="radio" name="radioinput" value="3" checked="checked" />"##
  let h := load html'
  let root := [0]
  let radios := (find h root "input[name='radioinput']")
  let c24 := radios.length == 3
  let selected_radio := (filter h radios ":checked")
  let c25 := selected_radio.length == 1
  let c26 := (val h selected_radio) == "3"
  let html' := r##"<input type="checkbox" name="chkbox" value="1" /><input type="checkbox" name="chkbox" value="2" checked="checked" /><input type="checkbox" name="chkbox" value="3" checked="checked" />"##
  let h := load html'
  let root := [0]
  let chkbox := (find h root "input[name='chkbox']")
  let c27 := chkbox.length == 3
  let selected_chkbox := (filter h chkbox ":checked")
  let c28 := selected_chkbox.length == 2
  let c29 := (String.intercalate "," (selected_chkbox.map fun x => val h [x])) == "2,3"
  [c1, c2, c3, c4, c5, c6, c7, c8, c9, c10, c11, c12, c13, c14, c15, c16, c17, c18, c19, c20, c21, c22, c23, c24, c25, c26, c27, c28, c29]

#guard test_selector_pseudo_checked.all id

/-- `tests/selector.rs:226 test_selector_pseudo_header`. -/
def test_selector_pseudo_header : List Bool :=
  let html' := r##"<h1></h1><div></div>"##
  let h := load html'
  let root := [0]
  let hgroups := (find h root ":header")
  let c1 := hgroups.length == 1
  let not_hgroups := (find h root ":not(:header)")
  let c2 := not_hgroups.length == 1
  [c1, c2]

#guard test_selector_pseudo_header.all id

/-- `tests/selector.rs:237 test_selector_pseudo_root`. -/
def test_selector_pseudo_root : List Bool :=
  let html' := r##"<h1>abc</h1><div></div>"##
  let h := load html'
  let root := [0]
  let html_element := (find h root ":root")
  let c1 := html_element.length == 0
  let html' := r##"<!doctype html><html><head></head><body><div id="nav"></div></body></html>"##
  let h := load html'
  let root := [0]
  let html_element := (find h root ":root")
  let c2 := html_element.length == 1
  let c3 := (tag h (html_element.getD 0 0)) == "HTML"
  let html_element := (find h root "html:root")
  let c4 := html_element.length == 1
  let c5 := (tag h (html_element.getD 0 0)) == "HTML"
  [c1, c2, c3, c4, c5]

#guard test_selector_pseudo_root.all id

/-- `tests/selector.rs:257 test_selector_pseudo_empty`. -/
def test_selector_pseudo_empty : List Bool :=
  let html' := r##"<h1>abc</h1><div></div><p><!--comment--></p><b> </b>"##
  let h := load html'
  let root := [0]
  let empty := (find h root ":empty")
  let c1 := empty.length == 2
  [c1]

#guard test_selector_pseudo_empty.all id

/-- `tests/selector.rs:267 test_selector_pseudo_contains`. -/
def test_selector_pseudo_contains : List Bool :=
  let html' := r##"<h1>abc</h1><div>a&amp;</div>"##
  let h := load html'
  let root := [0]
  let text_a := (find h root ":contains('a')")
  let c1 := text_a.length == 2
  let text_b := (find h root ":contains('b')")
  let c2 := text_b.length == 1
  let text_escape := (find h root ":contains(\"&\")")
  let c3 := text_escape.length == 1
  let html' := r##"
  <div id="content">
    <p>Visdom</p>
    <p>
      Vis<span>dom</span>!
    </p>
    <p>
      Vis&nbsp;<span>dom</span>!
    </p>
  </div>
  "##
  let h := load html'
  let root := [0]
  let content := (find h root "#content")
  let c4 := (find h content "p:contains('Visdom')").length == 2
  let c5 := (find h content "p:contains(\"Vis dom\")").length == 0
  let c6 := (find h content "p:contains(Visdom)").length == 2
  let c7 := (find h content "p:contains()").length == (find h content "p").length
  let html' := r##"
    <div>
      <p>Visdom is awesome</p>
      <p>Visdom 很好用</p>
    </div>
  "##
  let h := load html'
  let root := [0]
  let c8 := (find h root "p:contains('好用')").length == 1
  [c1, c2, c3, c4, c5, c6, c7, c8]

#guard test_selector_pseudo_contains.all id

/-- `tests/selector.rs:316 test_selector_pseudo_only_child`. -/
def test_selector_pseudo_only_child : List Bool :=
  let html' := r##"
    <!doctype html>
    <html lang="en">
      <head>
        <meta charset="utf-8">
        <title>:only-child</title>
      </head>
    <body>
      <ul class="list1">
        <li>list1-item1</li>
      </ul>
      <ul class="list2">
        <li>list2-item1</li>
        <li>list2-item2</li>
      </ul>
      <ul class="list3">
        lists-text!
        <li>list3-item1</li>
      </ul>
    </body>
    </html>
  "##
  let h := load html'
  let root := [0]
  let only_child := (find h root "li:only-child")
  let c1 := only_child.length == 2
  let c2 := (is h (parent h (eqAt only_child 0) "") ".list1" == some true)
  let c3 := (is h (parent h (eqAt only_child 1) "") ".list3" == some true)
  [c1, c2, c3]

#guard test_selector_pseudo_only_child.all id

/-- `tests/selector.rs:349 test_selector_pseudo_first_child`. -/
def test_selector_pseudo_first_child : List Bool :=
  let html' := r##"
    <!doctype html>
    <html lang="en">
      <head>
        <meta charset="utf-8">
        <title>:first-child</title>
      </head>
    <body>
      <ul>
        <li>item1</li>
        <li>item2</li>
        <li>item3</li>
        <li>item4</li>
        <li>item5</li>
        <li>item6</li>
        <li>item7</li>
        <li>item8</li>
        <li>item9</li>
      </ul>
    </body>
    </html>
  "##
  let h := load html'
  let root := [0]
  let first_child := (find h root "li:first-child")
  let c1 := first_child.length == 1
  let c2 := (text h first_child) == "item1"
  let prev_first_child := (prevAll h first_child ":first-child")
  let c3 := prev_first_child.length == 0
  let next_first_child := (nextAll h first_child ":first-child")
  let c4 := next_first_child.length == 0
  let html' := r##"<!doctype html>
  <html lang="en">
    <head>
      <meta charset="utf-8">
      <title>:first-child</title>
    </head>
  <body>
    <ul class="list">
      <li name="item-1">
        <ul>
          <li name="item-1-sub-item-1">sub-item-1</li>
          <li name="item-1-sub-item-2">sub-item-2</li>
        </ul>
      </li>
      <li name="item-2">
        <ul>
          <li name="item-2-sub-item-1">sub-item-1</li>
          <li name="item-2-sub-item-2">sub-item-2</li>
        </ul>
      </li>
    </ul>
  </body>
  </html>"##
  let h := load html'
  let root := [0]
  let list := (find h root "ul.list")
  let items := (find h list "li:first-child")
  let c5 := items.length == 3
  let items_first_name := (attr h (eqAt items 0) "name")
  let items_second_name := (attr h (eqAt items 1) "name")
  let items_third_name := (attr h (eqAt items 2) "name")
  let c6 := (items_first_name.isSome && (items_first_name.any fun v => v.isStr "item-1".toList))
  let c7 := (items_second_name.isSome && (items_second_name.any fun v => v.isStr "item-1-sub-item-1".toList))
  let c8 := (items_third_name.isSome && (items_third_name.any fun v => v.isStr "item-2-sub-item-1".toList))
  [c1, c2, c3, c4, c5, c6, c7, c8]

#guard test_selector_pseudo_first_child.all id

/-- `tests/selector.rs:421 test_selector_pseudo_last_child`. -/
def test_selector_pseudo_last_child : List Bool :=
  let html' := r##"
    <!doctype html>
    <html lang="en">
      <head>
        <meta charset="utf-8">
        <title>:last-child</title>
      </head>
    <body>
      <ul>
        <li>item1</li>
        <li>item2</li>
        <li>item3</li>
        <li>item4</li>
        <li>item5</li>
        <li>item6</li>
        <li>item7</li>
        <li>item8</li>
        <li>item9</li>
      </ul>
    </body>
    </html>
  "##
  let h := load html'
  let root := [0]
  let last_child := (find h root "li:last-child")
  let c1 := last_child.length == 1
  let c2 := (text h last_child) == "item9"
  let prev_last_child := (prevAll h last_child ":last-child")
  let c3 := prev_last_child.length == 0
  let next_last_child := (nextAll h last_child ":last-child")
  let c4 := next_last_child.length == 0
  [c1, c2, c3, c4]

#guard test_selector_pseudo_last_child.all id

/-- `tests/selector.rs:459 test_selector_pseudo_nth_child`. -/
def test_selector_pseudo_nth_child : List Bool :=
  let html' := r##"
  <!doctype html>
  <html lang="en">
    <head>
      <meta charset="utf-8">
      <title>:nth-child</title>
    </head>
  <body>
    <ul>
      <li>item1</li>
      <li>item2</li>
      <li>item3</li>
      <li>item4</li>
      <li>item5</li>
      <li>item6</li>
      <li>item7</li>
      <li>item8</li>
      <li>item9</li>
    </ul>
  </body>
  </html>
"##
  let h := load html'
  let root := [0]
  let ul := (find h root "ul")
  let child := (find h ul ":nth-child(0)")
  let c1 := child.length == 0
  let child := (find h ul ":nth-child(-2n + 3)")
  let c2 := child.length == 2
  let c3 := (text h child) == "item1item3"
  let child := (find h ul ":nth-child(1)")
  let c4 := child.length == 1
  let c5 := (text h child) == "item1"
  let child := (children h ul ":nth-child(10)")
  let c6 := child.length == 0
  let odd_childs := (find h ul ":nth-child(odd)")
  let c7 := odd_childs.length == 5
  let c8 := (text h odd_childs) == "item1item3item5item7item9"
  let even_childs := (find h ul ":nth-child( even )")
  let c9 := even_childs.length == 4
  let c10 := (text h even_childs) == "item2item4item6item8"
  let childs_3n := (find h ul ":nth-child(3n)")
  let c11 := childs_3n.length == 3
  let c12 := (text h childs_3n) == "item3item6item9"
  let nth_group_child := (find h ul ":nth-child(2n),:nth-child(10),:nth-child(1),:nth-child(n+8)")
  let c13 := nth_group_child.length == 6
  let childs_3n_2n := (filter h childs_3n ":nth-child(2n)")
  let c14 := childs_3n_2n.length == 1
  let c15 := (text h childs_3n_2n) == "item6"
  let html' := "<ul>" ++ String.join (List.replicate 3000 "<li></li>") ++ "</ul>"
  let h := load html'
  let root := [0]
  let ul := (find h root "ul")
  let nth_group_child := (find h ul ":nth-child(6n),:nth-child(3n),:nth-child(2n)")
  let c16 := nth_group_child.length == (find h ul ":nth-child(2n),:nth-child(3n)").length
  [c1, c2, c3, c4, c5, c6, c7, c8, c9, c10, c11, c12, c13, c14, c15, c16]

#guard test_selector_pseudo_nth_child.all id

/-- `tests/selector.rs:530 test_selector_pseudo_nth_last_child`. -/
def test_selector_pseudo_nth_last_child : List Bool :=
  let html' := r##"
    <!doctype html>
    <html lang="en">
      <head>
        <meta charset="utf-8">
        <title>:nth-last-child</title>
      </head>
    <body>
      <ul>
        <li>item1</li>
        <li>item2</li>
        <li>item3</li>
        <li>item4</li>
        <li>item5</li>
        <li>item6</li>
        <li>item7</li>
        <li>item8</li>
        <li>item9</li>
      </ul>
    </body>
    </html>
  "##
  let h := load html'
  let root := [0]
  let ul := (find h root "ul")
  let child := (children h ul ":nth-last-child(1)")
  let c1 := child.length == 1
  let c2 := (text h child) == "item9"
  let odd_last_childs := (find h ul ":nth-last-child(odd)")
  let c3 := odd_last_childs.length == 5
  let c4 := (text h odd_last_childs) == "item1item3item5item7item9"
  let childs_last_3n := (find h ul ":nth-last-child(3n)")
  let c5 := childs_last_3n.length == 3
  let c6 := (text h childs_last_3n) == "item1item4item7"
  let childs_last_3n_2n := (filter h childs_last_3n ":nth-last-child(2n)")
  let c7 := childs_last_3n_2n.length == 1
  let c8 := (text h childs_last_3n_2n) == "item4"
  [c1, c2, c3, c4, c5, c6, c7, c8]

#guard test_selector_pseudo_nth_last_child.all id

/-- `tests/selector.rs:575 test_selector_pseudo_only_of_type`. -/
def test_selector_pseudo_only_of_type : List Bool :=
  let html' := r##"
    <!doctype html>
    <html lang="en">
      <head>
        <meta charset="utf-8">
        <title>:only-of-type</title>
      </head>
    <body>
      <div id="content">
        <strong>only strong</strong>
        This is <span>span1</span>, this is a <b>only b</b>, this is another <span>span2</span>
      </div>
    </body>
    </html>
  "##
  let h := load html'
  let root := [0]
  let content := (find h root "#content")
  let only_of_type := (find h content ":only-of-type")
  let c1 := only_of_type.length == 2
  let c2 := (text h only_of_type) == "only strongonly b"
  let prevs_only_of_type := (prevAll h (find h content "b") ":only-of-type")
  let c3 := prevs_only_of_type.length == 1
  let c4 := (text h prevs_only_of_type) == "only strong"
  [c1, c2, c3, c4]

#guard test_selector_pseudo_only_of_type.all id

/-- `tests/selector.rs:605 test_selector_pseudo_first_of_type`. -/
def test_selector_pseudo_first_of_type : List Bool :=
  let html' := r##"
    <!doctype html>
    <html lang="en">
      <head>
        <meta charset="utf-8">
        <title>:first-of-type</title>
      </head>
    <body>
      <dl>
        <dt>dt1</dt>
          <dd>dd1</dd>
          <dd>dd2</dd>
          <dd>dd3</dd>
        <dt>dt2</dt>
          <dd>dd4</dd>
        <dt>dt3</dt>
          <dd>dd5</dd>
          <dd>dd6</dd>
      </dl>
    </body>
    </html>
  "##
  let h := load html'
  let root := [0]
  let dl := (find h root "dl")
  let type_child := (find h dl ":first-of-type")
  let c1 := type_child.length == 2
  let c2 := (text h type_child) == "dt1dd1"
  let type_child_prevs := (prevAll h type_child ":first-of-type")
  let c3 := type_child_prevs.length == 1
  let c4 := (text h type_child_prevs) == "dt1"
  let type_child_nexts := (nextAll h type_child ":first-of-type")
  let c5 := type_child_nexts.length == 1
  let c6 := (text h type_child_nexts) == "dd1"
  [c1, c2, c3, c4, c5, c6]

#guard test_selector_pseudo_first_of_type.all id

/-- `tests/selector.rs:646 test_selector_pseudo_last_of_type`. -/
def test_selector_pseudo_last_of_type : List Bool :=
  let html' := r##"
    <!doctype html>
    <html lang="en">
      <head>
        <meta charset="utf-8">
        <title>:last-of-type</title>
      </head>
    <body>
      <dl>
        <dt>dt1</dt>
          <dd>dd1</dd>
          <dd>dd2</dd>
          <dd>dd3</dd>
        <dt>dt2</dt>
          <dd>dd4</dd>
        <dt>dt3</dt>
          <dd>dd5</dd>
          <dd>dd6</dd>
      </dl>
    </body>
    </html>
  "##
  let h := load html'
  let root := [0]
  let dl := (find h root "dl")
  let type_child := (find h dl ":last-of-type")
  let c1 := type_child.length == 2
  let c2 := (text h type_child) == "dt3dd6"
  let type_child_prevs := (prevAll h type_child ":last-of-type")
  let c3 := type_child_prevs.length == 1
  let c4 := (text h type_child_prevs) == "dt3"
  let type_child_nexts := (nextAll h type_child ":last-of-type")
  let c5 := type_child_nexts.length == 1
  let c6 := (text h type_child_nexts) == "dd6"
  [c1, c2, c3, c4, c5, c6]

#guard test_selector_pseudo_last_of_type.all id

/-- `tests/selector.rs:687 test_selector_pseudo_nth_of_type`. -/
def test_selector_pseudo_nth_of_type : List Bool :=
  let html' := r##"
    <!doctype html>
    <html lang="en">
      <head>
        <meta charset="utf-8">
        <title>:nth-of-type</title>
      </head>
    <body>
      <dl>
        <dt>dt1</dt>
          <dd>dd1</dd>
          <dd>dd2</dd>
          <dd>dd3</dd>
        <dt>dt2</dt>
          <dd>dd4</dd>
        <dt>dt3</dt>
          <dd>dd5</dd>
          <dd>dd6</dd>
      </dl>
    </body>
    </html>
  "##
  let h := load html'
  let root := [0]
  let dl := (find h root "dl")
  let type_child := (children h dl ":nth-of-type(0)")
  let c1 := type_child.length == 0
  let type_child := (find h dl ":nth-of-type(1)")
  let c2 := type_child.length == 2
  let c3 := (text h type_child) == "dt1dd1"
  let odd_type_childs := (find h dl ":nth-of-type(odd)")
  let c4 := odd_type_childs.length == 5
  let c5 := (text h odd_type_childs) == "dt1dd1dd3dt3dd5"
  let childs_type_3n := (find h dl ":nth-of-type(3n)")
  let c6 := childs_type_3n.length == 3
  let c7 := (text h childs_type_3n) == "dd3dt3dd6"
  let childs_type_3n_2n := (filter h childs_type_3n ":nth-of-type(2n)")
  let c8 := childs_type_3n_2n.length == 1
  let c9 := (text h childs_type_3n_2n) == "dd6"
  let childs_type_3n_2n_prevs := (prevAll h childs_type_3n_2n ":nth-of-type(3n)")
  let c10 := childs_type_3n_2n_prevs.length == 2
  let c11 := (text h childs_type_3n_2n_prevs) == "dd3dt3"
  [c1, c2, c3, c4, c5, c6, c7, c8, c9, c10, c11]

#guard test_selector_pseudo_nth_of_type.all id

/-- `tests/selector.rs:739 test_selector_pseudo_nth_last_of_type`. -/
def test_selector_pseudo_nth_last_of_type : List Bool :=
  let html' := r##"
    <!doctype html>
    <html lang="en">
      <head>
        <meta charset="utf-8">
        <title>:nth-last-of-type</title>
      </head>
    <body>
      <dl>
        <dt>dt1</dt>
          <dd>dd1</dd>
          <dd>dd2</dd>
          <dd>dd3</dd>
        <dt>dt2</dt>
          <dd>dd4</dd>
        <dt>dt3</dt>
          <dd>dd5</dd>
          <dd>dd6</dd>
      </dl>
    </body>
    </html>
  "##
  let h := load html'
  let root := [0]
  let dl := (find h root "dl")
  let last_type_child := (find h dl ":nth-last-of-type(1)")
  let c1 := last_type_child.length == 2
  let c2 := (text h last_type_child) == "dt3dd6"
  let last_odd_type_childs := (find h dl ":nth-last-of-type(odd)")
  let c3 := last_odd_type_childs.length == 5
  let c4 := (text h last_odd_type_childs) == "dt1dd2dd4dt3dd6"
  let childs_type_last_3n := (find h dl ":nth-last-of-type(3n)")
  let c5 := childs_type_last_3n.length == 3
  let c6 := (text h childs_type_last_3n) == "dt1dd1dd4"
  let childs_type_last_3n_2n := (filter h childs_type_last_3n ":nth-last-of-type(2n)")
  let c7 := childs_type_last_3n_2n.length == 1
  let c8 := (text h childs_type_last_3n_2n) == "dd1"
  let childs_type_last_3n_2n_prevs := (prevAll h childs_type_last_3n_2n ":nth-last-of-type(3n)")
  let c9 := childs_type_last_3n_2n_prevs.length == 1
  let c10 := (text h childs_type_last_3n_2n_prevs) == "dt1"
  let childs_type_last_3n_2n_nests := (nextAll h childs_type_last_3n_2n ":nth-last-of-type(3n)")
  let c11 := childs_type_last_3n_2n_nests.length == 1
  let c12 := (text h childs_type_last_3n_2n_nests) == "dd4"
  [c1, c2, c3, c4, c5, c6, c7, c8, c9, c10, c11, c12]

#guard test_selector_pseudo_nth_last_of_type.all id

/-- `tests/selector.rs:792 test_selector_pseudo_not`. -/
def test_selector_pseudo_not : List Bool :=
  let html' := r##"
    <!doctype html>
    <html lang="en">
      <head>
        <meta charset="utf-8">
        <title>:not</title>
      </head>
    <body>
      <dl>
        <dt>dt1</dt>
          <dd>dd1</dd>
          <dd>dd2</dd>
          <dd>dd3</dd>
        <dt>dt2</dt>
          <dd>dd4</dd>
        <dt>dt3</dt>
          <dd>dd5</dd>
          <dd>dd6</dd>
      </dl>
    </body>
    </html>
  "##
  let h := load html'
  let root := [0]
  let dl := (find h root "dl")
  let not_dt := (children h dl ":not(dt)")
  let c1 := not_dt.length == 6
  let not_dt_dd := (children h dl ":not(dt,dd)")
  let c2 := not_dt_dd.length == 0
  let not_dt_dd := (children h dl ":not(dt,:not(dt))")
  let c3 := not_dt_dd.length == 0
  let not_dt_first := (children h dl ":not(dt:nth-child(-n + 1))")
  let c4 := not_dt_first.length == 8
  let c5 := (text h (eqAt not_dt_first 0)) == "dd1"
  [c1, c2, c3, c4, c5]

#guard test_selector_pseudo_not.all id

/-- `tests/selector.rs:834 test_selector_pseudo_has`. -/
def test_selector_pseudo_has : List Bool :=
  let html' := r##"
  <!doctype html>
  <html>
    <body>
      <div id="container">
        <div class="outer"><p>1</p></div>
        <div class="outer">2</div>
        <div class="outer">3</div>
        <div class="outer"><div><p>4</p></div></div>
      </div>
    </body>
  </html>
  "##
  let h := load html'
  let root := [0]
  let container := (find h root "#container")
  let c1 := container.length == 1
  let div_no_has_p := (children h container "div:not(:has(p))")
  let c2 := div_no_has_p.length == 2
  let c3 := (text h div_no_has_p) == "23"
  let divs := (children h container "div")
  let div_has_p := (has h divs "p")
  let c4 := div_has_p.length == 2
  let c5 := (text h div_has_p) == "14"
  let div_no_has_p := (not h divs ":has(p)")
  let c6 := div_no_has_p.length == 2
  let c7 := (text h div_no_has_p) == "23"
  [c1, c2, c3, c4, c5, c6, c7]

#guard test_selector_pseudo_has.all id

/-- `tests/selector.rs:869 test_wrong_selector_splitter`. -/
def test_wrong_selector_splitter : List Bool :=
  let h := load "<b>anything</b>"
  let root := [0]
  let c1 := (find h root ">,").isEmpty
  [c1]

#guard test_wrong_selector_splitter.all id

/-- `tests/selector.rs:876 test_wrong_selector_empty_start`. -/
def test_wrong_selector_empty_start : List Bool :=
  let h := load "<b>anything</b>"
  let root := [0]
  let c1 := (find h root ",b").isEmpty
  [c1]

#guard test_wrong_selector_empty_start.all id

/-- `tests/selector.rs:883 test_wrong_selector_empty_end`. -/
def test_wrong_selector_empty_end : List Bool :=
  let h := load "<b>anything</b>"
  let root := [0]
  let c1 := (find h root "b,").isEmpty
  [c1]

#guard test_wrong_selector_empty_end.all id

/-- `tests/selector.rs:890 test_wrong_selector_wrong_nested`. -/
def test_wrong_selector_wrong_nested : List Bool :=
  let h := load "<b>anything</b>"
  let root := [0]
  let c1 := (find h root ":not(:not(:a)").isEmpty
  [c1]

#guard test_wrong_selector_wrong_nested.all id

end Visdom.Conform
