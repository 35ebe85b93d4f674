import Verif.Conform.Loader
import Verif.Model.Kinds
import Verif.Model.Checked
import Verif.Model.Order
import Verif.Model.Template
/-!
# The tests of the repository that change the document, on the model

Tests, not proofs: `/repo/tests/attr.rs`, `content.rs`, `insertion.rs`, `mutation.rs`, `trait.rs`, `error.rs` and the unit tests inside `/repo/src`,
written by hand call by call. What the tests assert about `Debug` output, `source_code` and broken HTML is left out.
-/
set_option linter.unusedVariables false
namespace Visdom.Conform
open Visdom Spec

/-- A test that is to end without panic and with all its assertions true. -/
def passes (t : R (List Bool)) : Bool := match t with | .ok l => !l.isEmpty && l.all id | .error _ => false
/-- A test that is to panic. -/
def panics {α : Type} (t : R α) : Bool := match t with | .ok _ => false | .error e => e != .diverge

/-- rphtml's `clone_node`: the nodes below are copied, the copy has no parent. -/
def copyTree : Nat → Heap → Option Nat → Nat → Heap × Nat
  | 0, h, _, x => (h, x)
  | k + 1, h, p, x =>
    let n := h.size
    let h1 := (h.alloc { h.node x with parent := p, childs := none }).1
    let r := ((h.node x).childs.getD []).foldl (fun (s : Heap × List Nat) c =>
      let q := copyTree k s.1 (some n) c
      (q.1, s.2 ++ [q.2])) (h1, [])
    (r.1.setChilds n ((h.node x).childs.map fun _ => r.2), n)
def copier : Copier := fun h x => let r := copyTree (h.size + 1) h none x; (r.1.upd r.2 fun m => { m with index := 0 }, r.2)

def index (h : Heap) (X : List Nat) : Nat := (h.node (X.getD 0 0)).index
def loadTo (h : Heap) (s : String) : Heap × List Nat := let r := loadInto h s.toList; (r.1, [r.2])
def textOf (h : Heap) (x : Nat) : String := text h [x]

/-- `tests/attr.rs:7 test_normal_attr`. -/
def test_normal_attr : R (List Bool) := do
  let a := "contenteditable".toList
  let h := load "<div class='first' contenteditable><input type=\"text\" type=\"file\" /></div><div class='test-attrs' draggable data-type='link' name='cool' data-type='override'></div>"
  let div := children h [0] "div.first"
  let c1 := (← h.hasAttr a div) && !(← h.hasAttr "content".toList div)
  let c2 := (← h.attr div a).any (·.isTrue)
  let c3 := (← h.attr (find h [0] "p") a).isNone
  let h ← h.removeAttr div a
  let c4 := (← h.attr div a).isNone
  let h ← h.setAttr quotes div a none
  let c5 := match ← h.attr div a with
    | none => false
    | some v => v.isTrue && v.isStr [] && v.text == [] && v.toList == []
  let input := children h div "input"
  let c6 := match ← h.attr input "type".toList with
    | none => false
    | some v => v.isStr "text".toList && v.text == "text".toList && v.toList == ["text".toList]
  let h ← h.setAttr quotes input "type".toList (some "file".toList)
  let c7 := isStr h input "type" "file"
  let attrs ← getAttributes (h.node ((children h [0] "div.test-attrs").getD 0 0)).attrs
  let c8 := attrs.length == 4
  let c9 := attrs.map (fun p => String.ofList p.1) == ["class", "draggable", "data-type", "name"]
  let c10 := attrs.map (fun p => (p.2.isTrue, String.ofList p.2.text)) == [(false, "test-attrs"), (true, ""), (false, "link"), (false, "cool")]
  let h := load "<input type=\"text\" READONly />"
  let input := children h [0] "[readOnly]"
  let c11 := input.length == 1
  let h ← h.setAttr quotes input "title".toList (some "this's a title".toList)
  let c12 := (← h.attr input "title".toList).map (fun v => String.ofList v.text) == some "this's a title"
  let h ← h.setAttr quotes input "title".toList (some "\"this's a\" title".toList)
  let c13 := (← h.attr input "title".toList).map (fun v => String.ofList v.text) == some "\"this&apos;s a\" title"
  return [c1, c2, c3, c4, c5, c6, c7, c8, c9, c10, c11, c12, c13]

/-- `tests/attr.rs:76 test_class_attr`. -/
def test_class_attr : R (List Bool) := do
  let h := load "<div class=\"first\"></div>"
  let div := children h [0] "div"
  let c1 := isStr h div "class" "first"
  let h ← h.removeClass quotes div "first".toList
  let c2 := isStr h div "class" ""
  let h ← h.addClass quotes div "first  second".toList
  let c3 := match attr h div "class" with
    | none => false
    | some v => v.toList.contains "first".toList && v.toList.contains "second".toList && v.isStr "first second".toList
  let h ← h.toggleClass quotes div "first third".toList
  let c4 := hasClass h div "first" == some false && hasClass h div "second" == some true && hasClass h div "third" == some true
  let c5 := isStr h div "class" "second third"
  let h ← h.removeAttr div "class".toList
  let c6 := !(← h.hasAttr "class".toList div)
  let h ← h.addClass quotes div "first".toList
  let c7 := hasClass h div "first" == some true
  let h ← h.removeAttr div "class".toList
  let h ← h.toggleClass quotes div "first second".toList
  let c8 := hasClass h div "first" == some true && hasClass h div "second" == some true
  return [c1, c2, c3, c4, c5, c6, c7, c8]

#guard passes test_normal_attr
#guard passes test_class_attr

/-- `tests/content.rs:8 test_val`. -/
def test_val : R (List Bool) := do
  let h := load "
  <input type=\"text\" value=\"textinput\" />
  <input type=\"radio\" name=\"radioinput\" value=\"radio1\" />
  <input type=\"radio\" name=\"radioinput\" value=\"radio2\" checked=\"checked\" />
  <input type=\"radio\" name=\"radioinput\" value=\"radio3\" />
  <input type=\"checkbox\" name=\"checkboxinput\" value=\"checkbox1\" />
  <input type=\"checkbox\" name=\"checkboxinput\" value=\"checkbox2\" checked=\"checked\" />
  <input type=\"checkbox\" name=\"checkboxinput\" value=\"checkbox3\" checked=\"checked\" />
  <p value=\"abc\"></p>
  <input type=\"text\" name=\"novalue\" />
  "
  let inputs := children h [0] "input"
  let c1 := val h inputs == "textinput"
  let c2 := (filter h inputs "[type='radio']").length == 3 && (filter h inputs "[type='radio']:checked").length == 1
  let c3 := val h (filter h inputs "[type='radio']:checked") == "radio2"
  let c4 := val h (eqAt (filter h inputs "[name='radioinput']") 0) == "radio1"
  let c5 := (filter h inputs "[type='checkbox']").length == 3 && (filter h inputs "[type='checkbox']:checked").length == 2
  let c6 := val h (filter h inputs "[type='checkbox']:checked") == "checkbox2"
  let c7 := (find h [0] "p").length == 1 && val h (find h [0] "p") == "" && val h (find h [0] "div") == ""
  let c8 := (find h [0] "input[name='novalue']").length == 1 && val h (find h [0] "input[name='novalue']") == ""
  let h := load "<textarea><div>This is the content in textarea</div></textarea>"
  let c9 := val h (children h [0] "textarea") == "<div>This is the content in textarea</div>"
  let sel := fun (s : String) (n : Nat) (v : String) =>
    let h := load s
    let x := children h [0] "select"
    (find h x "option:checked").length == n && val h x == v
  let three := "<option value=\"1\">1</option> <option value=\"2\">2</option> <option value=\"3\">3</option>"
  let mid := "<option value=\"1\">1</option> <option value=\"2\" selected=\"selected\">2</option> <option value=\"3\">3</option>"
  let c10 := sel ("<select>" ++ three ++ "</select>") 1 "1"
  let c11 := sel ("<select><optgroup>" ++ three ++ "</optgroup></select>") 0 ""
  let c12 := sel ("<select>" ++ mid ++ "</select>") 1 "2"
  let c13 := sel ("<select><optgroup>" ++ mid ++ "</optgroup></select>") 1 "2"
  let c14 := sel ("<select multiple>" ++ three ++ "</select>") 0 ""
  let c15 := sel ("<select multiple><optgroup>" ++ three ++ "</optgroup></select>") 0 ""
  let many := "
  <select multiple>
    <optgroup>
      <option value=\"1\">1</option>
      <option value=\"2\" selected>2</option>
      <option value=\"3\" selected>3</option>
    </optgroup>
    <optgroup>
      <option value=\"4\">4</option>
      <option value=\"5\" selected>5</option>
      <option value=\"6\">6</option>
    </optgroup>
    <option value=\"7\" selected>7</option>
  </select>
  "
  let c16 := sel many 4 "2,3,5,7"
  let h := load many
  let v ← valOf h (env h).text (children h [0] "select")
  let c17 := String.ofList v.items.flatten == "2357"
  return [c1, c2, c3, c4, c5, c6, c7, c8, c9, c10, c11, c12, c13, c14, c15, c16, c17]
#guard passes test_val

/-- `tests/content.rs:150 test_set_html`. -/
def test_set_html : R (List Bool) := do
  let one := fun (s : String) => do
    let h := load s
    let p := children h [0] ".parent"
    let setted := "This is a <strong>test</strong>!"
    let h ← setHtmlAll ext setted.toList h p
    let c1 := text h p == "This is a test!" && (children h p "strong").length == 1 && html h p == setted
    let h ← setHtmlAll ext [] h p
    let c2 := html h p == ""
    return [c1, c2]
  let a ← one "<div class=\"parent\"></div>"
  let b ← one "<pre class=\"parent\"></pre>"
  return a ++ b
#guard passes test_set_html

/-- `tests/content.rs:180 test_text_set_html`. -/
def test_text_set_html : R (List Bool) := do
  let h := load "<div class=\"parent\">This is a test!</div>"
  let p := children h [0] ".parent"
  let texts ← textsAll h ext.contentTag 1 p
  let c1 := texts.length == 1
  let c2 := texts.all fun x => textOf h x == "This is a test!"
  let h ← setHtmlAll ext "This is a <strong>test</strong>!".toList h texts
  let c3 := text h p == "This is a test!" && (children h p "strong").length == 1 && text h (children h p "strong") == "test"
  let h := load "<div></div>"
  let div := find h [0] "div"
  let c4 := div.length == 1 && text h div == ""
  return [c1, c2, c3, c4]
#guard passes test_text_set_html

/-- `tests/content.rs:211 test_set_text`. -/
def test_set_text : R (List Bool) := do
  let one := fun (s : String) =>
    let h := load s
    let p := children h [0] ".parent"
    let setted := "This is a <strong>test</strong>!"
    let h := setTextAll h ext p setted.toList
    let c1 := text h p == setted && (children h p "strong").length == 0 && html h p == "This is a &lt;strong&gt;test&lt;/strong&gt;!"
    let h := setTextAll h ext p []
    c1 && text h p == ""
  let c1 := one "<div class=\"parent\"></div>" && one "<pre class=\"parent\"></pre>"
  let h := load "<script>var a = 1;</script>"
  let script := find h [0] "script"
  let c2 := script.length == 1 && text h script == "var a = 1;"
  let h := setTextAll h ext script "var b = 2;".toList
  let c3 := text h script == "var b = 2;"
  let h := load "<style></style>"
  let style := find h [0] "style"
  let c4 := style.length == 1 && text h style == ""
  let h ← setHtmlAll ext "body{background:blue;}".toList h style
  let c5 := text h style == "body{background:blue;}" && html h style == "body{background:blue;}"
  return [c1, c2, c3, c4, c5]
#guard passes test_set_text

/-- `tests/content.rs:260-315 test_inner_html`, `test_inner_htmls`, `test_outer_html`, `test_outer_htmls`. -/
def test_htmls : R (List Bool) := do
  let inner := "abc<span>def</span>ghj"
  let code := "<div>" ++ inner ++ "</div>"
  let h := load code
  let div := find h [0] "div"
  let p := find h [0] "p"
  let c1 := html h div == inner && html h p == "" && outerHtml h div == code && outerHtml h p == ""
  let h := load (code ++ code)
  let div := find h [0] "div"
  let c2 := htmls h (eqAt div 0) == inner && htmls h div == inner ++ inner && htmls h p == ""
  let c3 := outerHtmls h (eqAt div 0) == code && outerHtmls h div == code ++ code && outerHtmls h p == ""
  return [c1, c2, c3]
#guard passes test_htmls

/-- `tests/content.rs:318 test_texts`. -/
def test_texts : R (List Bool) := do
  let ct := ext.contentTag
  let h := load "
    <div id=\"content\">FIRST-ABC<div>SECOND-ABC<style>.a{{color:red}}</style>SECOND-DEF</div><script>var a = 1;</script>FIRST-DEF</div>
  "
  let content := find h [0] "#content"
  let noElem := fun (h : Heap) (_ : Nat) (x : Nat) => !h.isElem x
  let c1 := (← textsAll h ct 0 content).length == 6 && (← textsAll h ct 1 content).length == 3
  let c2 := (← textsByAll h ct 0 (noElem h) content).length == 4 && (← textsByAll h ct 1 (noElem h) content).length == 2
  let h := load "<script>var a = 1;</script>"
  let script := find h [0] "script"
  let texts ← textsAll h ct 0 script
  let c3 := texts.length == 1 && texts.all fun x => textOf h x == "var a = 1;"
  let c4 := (← textsByAll h ct 0 (noElem h) script).length == 0
  let h := load "<div id=\"text\">abc<script>var a = 1;</script><svg xmlns=\"http://www.w3.org/2000/svg\" version=\"1.1\"><text x=\"0\" y=\"15\" fill=\"red\" transform=\"rotate(30 20,40)\">I love SVG</text></svg></div>"
  let d := find h [0] "#text"
  let c5 := (← textsAll h ct 0 d).length == 3 && (← textsByAll h ct 0 (noElem h) d).length == 2
  let c6 := (← textsByRecAll h ct 0 (noElem h) (fun x => tag h x != "SVG") d).length == 1
  return [c1, c2, c3, c4, c5, c6]
#guard passes test_texts

/-- `tests/insertion.rs:8 test_append_child`. -/
def test_append_child : R (List Bool) := do
  let h := load "<div class=\"parent\"><div class=\"first-child\"></div></div>"
  let p := children h [0] ".parent"
  let first := children h p ".first-child"
  let (h, new) := loadTo h "<div class=\"second-child\"></div><div class=\"third-child\"></div>"
  let c1 := index h first == 0
  let h ← insertAll ext .beforeEnd new h p
  let c2 := index h first == 0
  let c3 := index h (← lastE (children h p "")) == 2
  let (h, empty) := loadTo h ""
  let h ← appendTo ext empty p h
  let c4 := index h (← lastE (children h p "")) == 2
  return [c1, c2, c3, c4]
#guard passes test_append_child

/-- `tests/insertion.rs:31 test_prepend_child`. -/
def test_prepend_child : R (List Bool) := do
  let h := load "<div class=\"parent\"><div class=\"third-child\"></div></div>"
  let p := children h [0] ".parent"
  let last := children h p ".third-child"
  let (h, new) := loadTo h "<div class=\"first-child\"></div><div class=\"second-child\"></div>"
  let c1 := index h last == 0
  let h ← prependTo ext new p h
  let c2 := index h last == 2
  let c3 := index h (eqAt (children h p "") 0) == 0
  return [c1, c2, c3]
#guard passes test_prepend_child

/-- `tests/insertion.rs:48 test_insert_before`. -/
def test_insert_before : R (List Bool) := do
  let h := load "<div class=\"parent\"><div class=\"third-child\"></div></div>"
  let third := children h (children h [0] ".parent") ".third-child"
  let (h, inserted) := loadTo h "<div class=\"first-child\"></div><div class=\"second-child\"></div>"
  let kids := children h inserted ""
  let c1 := index h third == 0
  let second := filter h kids ".second-child"
  let h ← insertBefore ext second third h
  let c2 := index h third == 1 && index h second == 0 && (children h inserted "").length == 1
  let first := filter h kids ".first-child"
  let h ← insertBefore ext first second h
  let c3 := index h third == 2 && index h second == 1 && index h first == 0 && (children h inserted "").length == 0
  return [c1, c2, c3]
#guard passes test_insert_before

/-- `tests/insertion.rs:74 test_insert_after`. -/
def test_insert_after : R (List Bool) := do
  let h := load "<div class=\"parent\"><div class=\"first-child\"></div></div>"
  let first := children h (children h [0] ".parent") ".first-child"
  let (h, inserted) := loadTo h "<div class=\"second-child\"></div><div class=\"third-child\"></div>"
  let kids := children h inserted ""
  let c1 := index h first == 0
  let second := filter h kids ".second-child"
  let h ← insertAfter ext second first h
  let c2 := index h first == 0 && index h second == 1 && (children h inserted "").length == 1
  let third := filter h kids ".third-child"
  let h ← insertAfter ext third second h
  let c3 := index h third == 2 && index h second == 1 && index h first == 0 && (children h inserted "").length == 0
  return [c1, c2, c3]
#guard passes test_insert_after

/-- `tests/insertion.rs:100 test_empty`, `tests/mutation.rs:43 test_empty`, `tests/mutation.rs:56 test_remove`. -/
def test_empty : R (List Bool) := do
  let h := load "<div id=\"content\">This is a <strong>test</strong>!</div>"
  let content := find h [0] "#content"
  let c1 := content.length == 1 && (children h content "strong").length == 1
  let h' := emptyAll h ext content
  let c2 := (children h' content "strong").length == 0 && html h' content == ""
  let h ← removeAll h (find h content "strong")
  let c3 := (find h content "strong").length == 0 && text h content == "This is a !"
  return [c1, c2, c3]
#guard passes test_empty

/-- `tests/insertion.rs:113 test_allow_insert`. -/
def test_allow_insert : R (List Bool) := do
  let h := load "<div id=\"content\"><img src=\"picture.jpg\" /></div>"
  let img := find h [0] "img"
  let h ← setHtmlAll ext "<div class='test'></div>".toList h img
  let c1 := html h img == ""
  let (h, kids) := loadTo h "abc<span>def</span><!--ghi-->"
  let h ← appendTo ext kids img h
  let c2 := html h img == ""
  let h := load "<title></title>"
  let title := find h [0] "title"
  let h ← setHtmlAll ext "ab<span></span>cd".toList h title
  let c3 := text h title == "ab<span></span>cd"
  let h := emptyAll h ext title
  let (h, content) := loadTo h "ab<span></span>cd"
  let h ← appendTo (extOf h) content title h
  let c4 := text h title == "abcd"
  let h := load "<div id=\"wrapper\"><div id=\"inner\"></div></div>"
  let wrapper := find h [0] "#wrapper"
  let inner := find h wrapper "#inner"
  let h ← appendTo ext wrapper inner h
  let c5 := (find h wrapper "#inner").length == 1
  return [c1, c2, c3, c4, c5]
#guard passes test_allow_insert

def page (main : String) : Heap := load ("
  <!doctype html>
  <html>
    <head></head>
    <body>
      <div id=\"main\">" ++ main ++ "
      </div>
    </body>
  </html>")

/-- `tests/insertion.rs:151-212 test_append_wrong_document`, `test_append_wrong_itself`, `test_append_wrong_parent`: the handler, which panics in
these tests, is called, and nothing is changed. -/
def test_append_wrong : R (List Bool) := do
  let H : Handlers := fun x => some x
  let one : Heap → List Nat → List Nat → R Bool := fun h X T => do
    let r ← insertAllR H ext .beforeEnd X h T
    return (r.2.length == 1 && (outerHtml r.1 [0] == outerHtml h [0] : Bool) : Bool)
  let h := page ""
  let c1 ← one h [0] (find h [0] "#main")
  let c2 ← one h (find h [0] "#main") (find h [0] "#main")
  let h := page "<div id=\"container\"></div>"
  let c3 ← one h (find h [0] "#main") (find h [0] "#container")
  return [c1, c2, c3]
#guard passes test_append_wrong

/-- `tests/mutation.rs:9 test_remove_child`. -/
def test_remove_child : R (List Bool) := do
  let h := load "<div><p></p><ul></ul><ol></ol></div>"
  let div := children h [0] "div"
  let p := children h div "p"
  let ul := children h div "ul"
  let ol := children h div "ol"
  let c1 := index h p == 0 && index h ul == 1 && index h ol == 2
  let h1 ← removeAll h p
  let c2 := index h1 ul == 0 && index h1 ol == 1
  let h2 ← removeAll h ul
  let c3 := index h2 p == 0 && index h2 ol == 1
  let h3 ← removeAll h ol
  let c4 := index h3 p == 0 && index h3 ul == 1
  return [c1, c2, c3, c4]
#guard passes test_remove_child

/-- `tests/mutation.rs:68 test_insert` and `tests/mutation.rs:98 test_replace_with`. -/
def test_replace (repl : Bool) : R (List Bool) := do
  let h := load "
  <div>
      <img src=\"a.png\" />
      <img src=\"b.jpg\" />
      <img src=\"c.webp\" />
  </div>
  "
  let div := children h [0] "div"
  let imgs := find h div "img[src]"
  let h ← imgs.foldlM (fun (h : Heap) x => do
    if isStr h [x] "src" "a.png" then
      let (h, svg) := loadTo h "<svg></svg>"
      if repl then
        let r ← replaceAll ext svg h [x]
        return r.1
      else
        let h ← insertBefore ext svg [x] h
        removeAll h [x]
    else return h) h
  return [(find h div "img[src]").length == 2, (find h div "svg").length == 1]
#guard passes (test_replace true)
#guard passes (test_replace false)

/-- `tests/mutation.rs:126 test_clone`. -/
def test_clone : R (List Bool) := do
  let menuHtml := "<menu class=\"menu\">
  <h3>Title</h3>
  <ul class=\"list\">
    <li class=\"item-1\">item1</li>
    <li class=\"item-2\">item2</li>
  </ul>
  </menu>"
  let h := load ("
  <h2>logo</h2>
  " ++ menuHtml ++ "
  ")
  let menu := find h [0] ">.menu"
  let (h, clone) := copyAll copier h menu
  let h3 := find h clone ">h3"
  let h := setTextAll h ext h3 "h3".toList
  let c1 := outerHtml h menu == menuHtml && text h h3 == "h3"
  let item := find h clone ".item-1"
  let h ← h.addClass quotes item "item".toList
  let c2 := outerHtml h menu == menuHtml && hasClass h item "item" == some true
  let h ← h.removeClass quotes item "item-1".toList
  let h ← h.addClass quotes item "item-3".toList
  let h ← appendTo ext item (find h menu "ul.list") h
  let c3 := (find h menu ".list > li").length == 3 && hasClass h (eqAt (find h menu ".list > li") 2) "item-3" == some true
  let c4 := (find h clone ".list > li").length == 1 && text h (firstE (find h clone ".list > li")) == "item2"
  return [c1, c2, c3, c4]
#guard passes test_clone

/-- `tests/trait.rs:7 test_document_trait`. -/
def test_document_trait : R (List Bool) := do
  let own := fun (_ : Nat) => true
  let h := load "
    <!doctype html>
    <html>
      <head>
        <title>Vis<dom></title>
      </head>
      <body>
        Visdom!
      </body>
    </html>
  "
  let c1 := (← docTitle h (env h) own 0) == some "Vis<dom>".toList
  let c2 := match ← docHead h (env h) own 0 with
    | none => false
    | some x => text h (filter h (children h [x] "") "title") == "Vis<dom>"
  let c3 := match ← docBody h (env h) own 0 with
    | none => false
    | some x => (prev h [x] "").map (tag h) == ["HEAD"]
  let c4 := (← documentElement h (env h) own 0).map (tag h) == some "HTML"
  let h := load "<div>just a document fragement</div>"
  let c5 := (← docTitle h (env h) own 0).isNone && (← docHead h (env h) own 0).isNone && (← docBody h (env h) own 0).isNone &&
    (← documentElement h (env h) own 0).isNone
  return [c1, c2, c3, c4, c5]
#guard passes test_document_trait

/-- `tests/trait.rs:68 test_text_trait`. -/
def test_text_trait : R (List Bool) := do
  let ct := ext.contentTag
  let h := page "<div id=\"content\">Vis<span>dom</span></div>"
  let content := find h [0] "#content"
  let texts ← textsAll h ct 0 content
  let c1 := texts.map (textOf h) == ["Vis", "dom"]
  let h ← textsEach (wrapStep "^".toList "$".toList) 0 h texts
  let c2 := texts.map (textOf h) == ["^Vis$", "^dom$"]
  let h ← textsRemove h texts
  let c3 := (← textsAll h ct 0 content).length == 0
  let h := load "<script></script>"
  let texts ← textsAll h ct 1 (find h [0] "script")
  let c4 := texts.map (textOf h) == [""]
  let h ← textsEach (wrapStep "var a;".toList "var b;".toList) 0 h texts
  let c5 := texts.map (textOf h) == ["var a;var b;"]
  let h := load "<style></style>"
  let texts ← textsAll h ct 1 (find h [0] "style")
  let h ← texts.foldlM (fun h x => do (← h.appendText x "{}".toList).prependText x "body".toList) h
  let c6 := texts.map (textOf h) == ["body{}"]
  let h := load "<a>&lt;span&gt;&amp;</a>"
  let texts ← textsAll h ct 1 (find h [0] "a")
  let c7 := texts.map (textOf h) == ["<span>&"] && texts.all fun x => (h.node x).content == some "&lt;span&gt;&amp;".toList
  return [c1, c2, c3, c4, c5, c6, c7]
#guard passes test_text_trait

/-- `tests/error.rs:36-75 test_wrong_selector`, `test_wrong_selector_catch`: the handler is called, the result is empty. -/
def test_wrong_selector : R (List Bool) := do
  let h := load "
  <!doctype html>
  <html>
    <head></head>
    <a></a>
  </html>
  "
  let r ← findText h (env h) (fun _ => true) [0] "a:all-childs".toList
  return [r.1.isEmpty, r.2 == 1]
#guard passes test_wrong_selector

/-! `src/mesdoc/interface/element.rs:359 test_i_attr_value`. -/
#guard (let v := AttrValue.value "Hello".toList none
  v.isStr "Hello".toList && !v.isTrue && v.toList == ["Hello".toList] && v.text == "Hello".toList)
#guard AttrValue.isStr .tru [] && AttrValue.text .tru == [] && AttrValue.isTrue .tru && AttrValue.toList .tru == []

/-! `src/mesdoc/interface/elements.rs:3860 test_fn_relation_of`. -/
#guard relationOf [0] [0, 1] == .ancestor && relationOf [0, 1] [0] == .descendant && relationOf [0, 1] [1, 2, 3] == .other &&
  relationOf [1, 2, 3] [0, 1] == .other && relationOf [1, 2, 3] [0] == .other && relationOf [0, 1] [0, 1] == .equal

/-! `src/mesdoc/utils.rs:248 test_divide_isize`. -/
#guard [(7, 4, 2), (6, 4, 2), (5, 4, 1), (4, 4, 1), (-7, -4, 2), (-6, -4, 2), (-5, -4, 1), (-4, -4, 1), (7, -4, -2), (6, -4, -2), (5, -4, -1),
  (4, -4, -1), (-7, 4, -2), (-6, 4, -2), (-5, 4, -1), (-4, 4, -1)].all fun (p : Int × Int × Int) => divideIsize p.1 p.2.1 .round == p.2.2
#guard [(7, 4, 1), (6, 4, 1), (5, 4, 1), (4, 4, 1), (-7, -4, 1), (-6, -4, 1), (-5, -4, 1), (-4, -4, 1), (7, -4, -2), (6, -4, -2), (5, -4, -2),
  (4, -4, -1), (-7, 4, -2), (-6, 4, -2), (-5, 4, -2), (-4, 4, -1)].all fun (p : Int × Int × Int) => divideIsize p.1 p.2.1 .floor == p.2.2
#guard [(7, 4, 2), (6, 4, 2), (5, 4, 2), (4, 4, 1), (-7, -4, 2), (-6, -4, 2), (-5, -4, 2), (-4, -4, 1), (7, -4, -1), (6, -4, -1), (5, -4, -1),
  (4, -4, -1), (-7, 4, -1), (-6, 4, -1), (-5, 4, -1), (-4, 4, -1)].all fun (p : Int × Int × Int) => divideIsize p.1 p.2.1 .ceil == p.2.2

/-! `src/mesdoc/selector/pattern.rs:486 test_allow_indexs`. -/
#guard [(some (-2), some 3, 9, [0, 2]), (some 2, some 3, 9, [2, 4, 6, 8]), (none, some 3, 9, [2]), (none, some 3, 2, []), (some 0, some 3, 9, [2]),
  (some 0, some (-3), 9, []), (some 1, some 6, 5, []), (some 2, none, 9, [1, 3, 5, 7]), (some (-2), none, 9, []),
  (some (-4), some 3, 2, [])].all fun (p : Option Int × Option Int × Nat × List Nat) => getAllowedIndexs p.1 p.2.1 p.2.2.1 == .ok p.2.2.2

/-! `src/mesdoc/selector/pattern.rs:552 test_pattern_matched`. -/
#guard (nthMatched "-a".toList).isNone && (nthMatched "-1".toList).isSome && (nthMatched "-2n+a".toList).map (·.chars) == some "-2n".toList
#guard [",", " ", "\u0000"].all fun s => Pat.attrKey.matched s.toList == .ok none

/-! `src/mesdoc/selector/mod.rs:409-430`. -/
#guard Comb.children.reverse == .ok .parent && Comb.chain.reverse == .ok .chain && panics Comb.parent.reverse

/-! `src/mesdoc/selector/rule.rs:380-462`. -/
#guard ["{{nth", "nth}}", "{{nth}}"].all fun s => !panics (getQueues s.toList)
#guard ["nth}}}", "{{nth}", "{nth", "{nth#", "{nth#a#", "{nth#a##}", "{nth}{", "{abc!#abc}", "{abc!#abc#}", "{abc!#a#bc#}",
  "{abc!##a#bc##}"].all fun s => panics (getQueues s.toList)

end Visdom.Conform
