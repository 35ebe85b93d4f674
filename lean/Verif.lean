import Verif.Conform.Changes
import Verif.Conform.Examples
import Verif.Conform.Loader
import Verif.Conform.Methods
import Verif.Conform.Selectors
import Verif.Model.Alive
import Verif.Model.Attr
import Verif.Model.AttrRule
import Verif.Model.Basic
import Verif.Model.Chars
import Verif.Model.Checked
import Verif.Model.Compile
import Verif.Model.Copy
import Verif.Model.Document
import Verif.Model.Dom
import Verif.Model.Engine
import Verif.Model.Html
import Verif.Model.Kinds
import Verif.Model.Locks
import Verif.Model.Methods
import Verif.Model.Mutate
import Verif.Model.Nth
import Verif.Model.Order
import Verif.Model.Parser
import Verif.Model.Pattern
import Verif.Model.Query
import Verif.Model.Regex
import Verif.Model.Reports
import Verif.Model.Rules
import Verif.Model.Search
import Verif.Model.SetAttrs
import Verif.Model.Sets
import Verif.Model.Template
import Verif.Model.Text
import Verif.Model.TextValue
import Verif.Model.Texts
import Verif.Model.TextsHtml
import Verif.Model.Utils
import Verif.Model.Value
import Verif.Model.Values
import Verif.Proofs.Accept
import Verif.Proofs.AcceptLoop
import Verif.Proofs.AddExact
import Verif.Proofs.Again
import Verif.Proofs.Agree
import Verif.Proofs.Apart
import Verif.Proofs.Attr
import Verif.Proofs.Attributes
import Verif.Proofs.Cands
import Verif.Proofs.CandsMem
import Verif.Proofs.Chain
import Verif.Proofs.Checked
import Verif.Proofs.Classes
import Verif.Proofs.Copies
import Verif.Proofs.CopiesEngine
import Verif.Proofs.CopiesQuery
import Verif.Proofs.CopiesRules
import Verif.Proofs.CopiesSelect
import Verif.Proofs.CopiesSets
import Verif.Proofs.CopiesText
import Verif.Proofs.CopiesTops
import Verif.Proofs.Deeds
import Verif.Proofs.Desc
import Verif.Proofs.ElemsOnly
import Verif.Proofs.ElemsQuery
import Verif.Proofs.ElemsText
import Verif.Proofs.EndsEngine
import Verif.Proofs.EndsQuery
import Verif.Proofs.EndsText
import Verif.Proofs.Find
import Verif.Proofs.FindGood
import Verif.Proofs.FindProps
import Verif.Proofs.Forest
import Verif.Proofs.Graft
import Verif.Proofs.HistoryCheck
import Verif.Proofs.Html
import Verif.Proofs.Ident
import Verif.Proofs.Inner
import Verif.Proofs.Insert
import Verif.Proofs.Kept
import Verif.Proofs.Lists
import Verif.Proofs.Locks
import Verif.Proofs.Mirror
import Verif.Proofs.Mutate
import Verif.Proofs.Nav
import Verif.Proofs.Navigate
import Verif.Proofs.NoPanic
import Verif.Proofs.NoneUp
import Verif.Proofs.Nth
import Verif.Proofs.Open
import Verif.Proofs.Order
import Verif.Proofs.OrderKept
import Verif.Proofs.ParseFuel
import Verif.Proofs.ParseLoop
import Verif.Proofs.ParseSample
import Verif.Proofs.ParseText
import Verif.Proofs.Patterns
import Verif.Proofs.Place
import Verif.Proofs.Pos
import Verif.Proofs.PosList
import Verif.Proofs.PosOnly
import Verif.Proofs.PosRules
import Verif.Proofs.PosType
import Verif.Proofs.ReLang
import Verif.Proofs.Regex
import Verif.Proofs.RuleText
import Verif.Proofs.Rules
import Verif.Proofs.Select
import Verif.Proofs.SetAttrs
import Verif.Proofs.Sets
import Verif.Proofs.SibsAny
import Verif.Proofs.SimGood
import Verif.Proofs.Sims
import Verif.Proofs.Speech
import Verif.Proofs.Steps
import Verif.Proofs.Strings
import Verif.Proofs.Stumble
import Verif.Proofs.Template
import Verif.Proofs.TextLen
import Verif.Proofs.TextSel
import Verif.Proofs.Total
import Verif.Proofs.Tree
import Verif.Proofs.Unfinished
import Verif.Proofs.Walks
import Verif.Props.Accept
import Verif.Props.Add
import Verif.Props.AddExact
import Verif.Props.Address
import Verif.Props.After
import Verif.Props.Again
import Verif.Props.Alive
import Verif.Props.AnyOrder
import Verif.Props.Arrange
import Verif.Props.ArrangeQuery
import Verif.Props.Attr
import Verif.Props.AttrExact
import Verif.Props.AttrRule
import Verif.Props.Attributes
import Verif.Props.Back
import Verif.Props.BackHtml
import Verif.Props.Chain
import Verif.Props.Chars
import Verif.Props.Classes
import Verif.Props.ClassesSharp
import Verif.Props.Common
import Verif.Props.CommonNav
import Verif.Props.Commute
import Verif.Props.CommuteAll
import Verif.Props.Copies
import Verif.Props.Deeds
import Verif.Props.Dissolve
import Verif.Props.Divide
import Verif.Props.Document
import Verif.Props.Duplicate
import Verif.Props.ElemsOnly
import Verif.Props.EmptyText
import Verif.Props.Ends
import Verif.Props.EndsCalls
import Verif.Props.Exchange
import Verif.Props.Filter
import Verif.Props.FilterKept
import Verif.Props.Find
import Verif.Props.FoundAfter
import Verif.Props.FoundArranged
import Verif.Props.FoundExchanged
import Verif.Props.FoundOne
import Verif.Props.Handles
import Verif.Props.History
import Verif.Props.Html
import Verif.Props.Ident
import Verif.Props.Insert
import Verif.Props.InsertMany
import Verif.Props.InsertedSteps
import Verif.Props.Invalid
import Verif.Props.Isolation
import Verif.Props.Kinds
import Verif.Props.LastExact
import Verif.Props.Laws
import Verif.Props.Looked
import Verif.Props.Marks
import Verif.Props.Markup
import Verif.Props.MarkupMove
import Verif.Props.Mirror
import Verif.Props.Mixed
import Verif.Props.MutExact
import Verif.Props.Narrow
import Verif.Props.NavCommon
import Verif.Props.NavComplex
import Verif.Props.NavOrder
import Verif.Props.Navigate
import Verif.Props.NeedQuote
import Verif.Props.Nth
import Verif.Props.NthExact
import Verif.Props.NthFind
import Verif.Props.Open
import Verif.Props.Order
import Verif.Props.OrderExact
import Verif.Props.OrderKept
import Verif.Props.Overflow
import Verif.Props.Owner
import Verif.Props.Panics
import Verif.Props.Parser
import Verif.Props.Pseudo
import Verif.Props.Reload
import Verif.Props.RemoveExact
import Verif.Props.Removed
import Verif.Props.RemovedAbove
import Verif.Props.RemovedSteps
import Verif.Props.Replace
import Verif.Props.ReplacedSteps
import Verif.Props.Reports
import Verif.Props.Reshape
import Verif.Props.Rewrite
import Verif.Props.Runs
import Verif.Props.Same
import Verif.Props.Search
import Verif.Props.SetAttrs
import Verif.Props.SetHtml
import Verif.Props.SetText
import Verif.Props.Sets
import Verif.Props.SiblingMethods
import Verif.Props.Siblings
import Verif.Props.SiblingsAny
import Verif.Props.SomeOrder
import Verif.Props.Speech
import Verif.Props.SpeechMove
import Verif.Props.Split
import Verif.Props.Strings
import Verif.Props.Template
import Verif.Props.TestKept
import Verif.Props.TextContent
import Verif.Props.Texts
import Verif.Props.TextsHtml
import Verif.Props.TextsRemove
import Verif.Props.TextsTwice
import Verif.Props.Toggle
import Verif.Props.Value
import Verif.Props.Values
import Verif.Props.Walks
import Verif.Props.Wrap
import Verif.Props.WrapAll
import Verif.Props.Written
import Verif.Spec.Accept
import Verif.Spec.Address
import Verif.Spec.After
import Verif.Spec.Again
import Verif.Spec.Apart
import Verif.Spec.Attr
import Verif.Spec.AttrRule
import Verif.Spec.Chars
import Verif.Spec.Common
import Verif.Spec.Commute
import Verif.Spec.Conc
import Verif.Spec.Copies
import Verif.Spec.CopyMade
import Verif.Spec.Deeds
import Verif.Spec.Digits
import Verif.Spec.Forest
import Verif.Spec.ForestCheck
import Verif.Spec.Html
import Verif.Spec.Kinds
import Verif.Spec.Lang
import Verif.Spec.Matcher
import Verif.Spec.Mirror
import Verif.Spec.Mutate
import Verif.Spec.Narrow
import Verif.Spec.Nth
import Verif.Spec.Open
import Verif.Spec.Place
import Verif.Spec.Pseudo
import Verif.Spec.Reach
import Verif.Spec.Reports
import Verif.Spec.Same
import Verif.Spec.Samples
import Verif.Spec.SelText
import Verif.Spec.Select
import Verif.Spec.Selector
import Verif.Spec.Shape
import Verif.Spec.Side
import Verif.Spec.Speech
import Verif.Spec.Strings
import Verif.Spec.Stumble
import Verif.Spec.Template
import Verif.Spec.Text
import Verif.Spec.Texts
import Verif.Spec.TextsHtml
import Verif.Spec.Tree
import Verif.Spec.TreeCheck
import Verif.Spec.Value
import Verif.Spec.Walk
import Verif.Spec.White
import Verif.Spec.Written
