import Verif.Base.Chars
import Verif.Base.Map
import Verif.Base.Space
import Verif.Base.Text
import Verif.Lemmas.Args
import Verif.Lemmas.Arith
import Verif.Lemmas.AutoWrap
import Verif.Lemmas.Bash
import Verif.Lemmas.CmdContext
import Verif.Lemmas.Content
import Verif.Lemmas.Content2
import Verif.Lemmas.Contexts
import Verif.Lemmas.DictOps
import Verif.Lemmas.Files
import Verif.Lemmas.FindFiles
import Verif.Lemmas.Float64
import Verif.Lemmas.FloatFor
import Verif.Lemmas.FuncHelp
import Verif.Lemmas.GoParse
import Verif.Lemmas.GoScan
import Verif.Lemmas.GoVal
import Verif.Lemmas.HclLex
import Verif.Lemmas.HclMark
import Verif.Lemmas.HclOut
import Verif.Lemmas.HclRead
import Verif.Lemmas.HeapOps
import Verif.Lemmas.Ident
import Verif.Lemmas.Include
import Verif.Lemmas.JsonOut
import Verif.Lemmas.ListOps
import Verif.Lemmas.Load
import Verif.Lemmas.Marshal
import Verif.Lemmas.Math
import Verif.Lemmas.Merge
import Verif.Lemmas.MergeFrame
import Verif.Lemmas.MinMax
import Verif.Lemmas.Numbers
import Verif.Lemmas.OsFuncs
import Verif.Lemmas.Path
import Verif.Lemmas.Protect
import Verif.Lemmas.Quote
import Verif.Lemmas.Raw
import Verif.Lemmas.RazorAssignMatch
import Verif.Lemmas.RazorAssignRule
import Verif.Lemmas.RazorAt
import Verif.Lemmas.RazorBetween
import Verif.Lemmas.RazorBlockAuto
import Verif.Lemmas.RazorBlockMatch
import Verif.Lemmas.RazorBlockRules
import Verif.Lemmas.RazorBlockSteps
import Verif.Lemmas.RazorBounds
import Verif.Lemmas.RazorBraceRule
import Verif.Lemmas.RazorCallAuto
import Verif.Lemmas.RazorCallRule
import Verif.Lemmas.RazorEngine
import Verif.Lemmas.RazorExpr
import Verif.Lemmas.RazorGap
import Verif.Lemmas.RazorIgnore
import Verif.Lemmas.RazorIndex
import Verif.Lemmas.RazorLike
import Verif.Lemmas.RazorLines
import Verif.Lemmas.RazorLiteral
import Verif.Lemmas.RazorLoop
import Verif.Lemmas.RazorMail
import Verif.Lemmas.RazorMarks
import Verif.Lemmas.RazorName
import Verif.Lemmas.RazorNameAuto
import Verif.Lemmas.RazorNameRun
import Verif.Lemmas.RazorNameTable
import Verif.Lemmas.RazorOperator
import Verif.Lemmas.RazorParenAuto
import Verif.Lemmas.RazorParenFree
import Verif.Lemmas.RazorParenLine
import Verif.Lemmas.RazorParenLines
import Verif.Lemmas.RazorParenMatch
import Verif.Lemmas.RazorParenRest
import Verif.Lemmas.RazorParenSource
import Verif.Lemmas.RazorParenSteps
import Verif.Lemmas.RazorParts
import Verif.Lemmas.RazorPrepare
import Verif.Lemmas.RazorPrepareName
import Verif.Lemmas.RazorReady
import Verif.Lemmas.RazorRules
import Verif.Lemmas.RazorSettled
import Verif.Lemmas.RazorSingleMatch
import Verif.Lemmas.RazorSingleRule
import Verif.Lemmas.RazorSliceAuto
import Verif.Lemmas.RazorSliceRule
import Verif.Lemmas.RazorSliceSteps
import Verif.Lemmas.RazorSource
import Verif.Lemmas.RazorSplit
import Verif.Lemmas.RazorTable
import Verif.Lemmas.RazorValue
import Verif.Lemmas.RazorWord
import Verif.Lemmas.RazorWordAuto
import Verif.Lemmas.RazorWordRun
import Verif.Lemmas.RazorWordSteps
import Verif.Lemmas.Regex
import Verif.Lemmas.RegexOrder
import Verif.Lemmas.RegexStatic
import Verif.Lemmas.Replace
import Verif.Lemmas.Script
import Verif.Lemmas.SliceHeap
import Verif.Lemmas.Strings
import Verif.Lemmas.UserFunc
import Verif.Lemmas.Wrap
import Verif.Model.Addons
import Verif.Model.Args
import Verif.Model.Arith
import Verif.Model.AutoWrap
import Verif.Model.Bash
import Verif.Model.Batch
import Verif.Model.CmdContext
import Verif.Model.Content
import Verif.Model.Contexts
import Verif.Model.ConvertData
import Verif.Model.DataFuncs
import Verif.Model.DictOps
import Verif.Model.Ellipsis
import Verif.Model.Extensions
import Verif.Model.Files
import Verif.Model.FindFiles
import Verif.Model.Float64
import Verif.Model.FuncHelp
import Verif.Model.FuncTable
import Verif.Model.GoVal
import Verif.Model.Hcl
import Verif.Model.HclOut
import Verif.Model.HeapOps
import Verif.Model.Ident
import Verif.Model.Include
import Verif.Model.JsonIn
import Verif.Model.JsonOut
import Verif.Model.ListFuncs
import Verif.Model.ListOps
import Verif.Model.Listings
import Verif.Model.Load
import Verif.Model.Lookup
import Verif.Model.Main
import Verif.Model.Marshal
import Verif.Model.Math
import Verif.Model.MinMax
import Verif.Model.Numbers
import Verif.Model.OsFuncs
import Verif.Model.Path
import Verif.Model.Protect
import Verif.Model.Quote
import Verif.Model.RazorAssign
import Verif.Model.RazorEngine
import Verif.Model.RazorExpr
import Verif.Model.RazorIgnore
import Verif.Model.RazorIndex
import Verif.Model.RazorInsert
import Verif.Model.RazorLiteral
import Verif.Model.RazorPrepare
import Verif.Model.RazorRules
import Verif.Model.RazorTranslate
import Verif.Model.Regex
import Verif.Model.Registered
import Verif.Model.Rounding
import Verif.Model.Run
import Verif.Model.Script
import Verif.Model.Signature
import Verif.Model.Slice
import Verif.Model.SliceHeap
import Verif.Model.SprigTable
import Verif.Model.Strings
import Verif.Model.Terraform
import Verif.Model.TextFuncs
import Verif.Model.UserFunc
import Verif.Model.Value
import Verif.Props.Addons
import Verif.Props.Append
import Verif.Props.Args
import Verif.Props.Arith
import Verif.Props.AutoWrap
import Verif.Props.Bash
import Verif.Props.Batch
import Verif.Props.Bits
import Verif.Props.CmdContext
import Verif.Props.Content
import Verif.Props.ContentErrors
import Verif.Props.Contexts
import Verif.Props.ConvertData
import Verif.Props.DataFuncs
import Verif.Props.Dicts
import Verif.Props.Ellipsis
import Verif.Props.Extensions
import Verif.Props.Files
import Verif.Props.FindFiles
import Verif.Props.FuncHelp
import Verif.Props.FuncTable
import Verif.Props.GoVal
import Verif.Props.Hcl
import Verif.Props.HclOut
import Verif.Props.Ident
import Verif.Props.Include
import Verif.Props.JsonOut
import Verif.Props.ListFuncs
import Verif.Props.Listings
import Verif.Props.Lists
import Verif.Props.Lists2
import Verif.Props.Load
import Verif.Props.Lookup
import Verif.Props.Main
import Verif.Props.Marshal
import Verif.Props.Math
import Verif.Props.MinMax
import Verif.Props.OsFuncs
import Verif.Props.Protect
import Verif.Props.Razor
import Verif.Props.RazorAssign
import Verif.Props.RazorAt
import Verif.Props.RazorBlock
import Verif.Props.RazorBrace
import Verif.Props.RazorCall
import Verif.Props.RazorEngine
import Verif.Props.RazorIgnore
import Verif.Props.RazorIndex
import Verif.Props.RazorIndexed
import Verif.Props.RazorLiteral
import Verif.Props.RazorName
import Verif.Props.RazorParen
import Verif.Props.RazorParts
import Verif.Props.RazorPrepare
import Verif.Props.RazorRules
import Verif.Props.RazorSingle
import Verif.Props.RazorTemplate
import Verif.Props.RazorTranslate
import Verif.Props.RazorWord
import Verif.Props.RegexRepeat
import Verif.Props.Registered
import Verif.Props.Rounding
import Verif.Props.Run
import Verif.Props.Script
import Verif.Props.Sharing
import Verif.Props.Signature
import Verif.Props.Slices
import Verif.Props.SprigTable
import Verif.Props.Strings
import Verif.Props.TableNames
import Verif.Props.Terraform
import Verif.Props.TextFuncs
import Verif.Props.UserFunc
import Verif.Spec.AddonsSpec
import Verif.Spec.ArgsSpec
import Verif.Spec.ArithSpec
import Verif.Spec.AssignSpec
import Verif.Spec.BashSpec
import Verif.Spec.BatchSpec
import Verif.Spec.ContentSpec
import Verif.Spec.ContextSpec
import Verif.Spec.ConvertSpec
import Verif.Spec.DataFuncsSpec
import Verif.Spec.DictSpec
import Verif.Spec.DiskSpec
import Verif.Spec.ExpressionSpec
import Verif.Spec.ExtensionsSpec
import Verif.Spec.FileSpec
import Verif.Spec.GoValSpec
import Verif.Spec.HclSpec
import Verif.Spec.HclTextSpec
import Verif.Spec.HeapSpec
import Verif.Spec.HelpSpec
import Verif.Spec.IdentSpec
import Verif.Spec.IncludeSpec
import Verif.Spec.IndexSpec
import Verif.Spec.JsonSpec
import Verif.Spec.ListSpec
import Verif.Spec.ListingsSpec
import Verif.Spec.LiteralSpec
import Verif.Spec.LoadSpec
import Verif.Spec.LookupSpec
import Verif.Spec.MinMaxSpec
import Verif.Spec.NativeSpec
import Verif.Spec.NumberSpec
import Verif.Spec.PrepareSpec
import Verif.Spec.QuoteSpec
import Verif.Spec.RangeSpec
import Verif.Spec.RawSpec
import Verif.Spec.RawValueSpec
import Verif.Spec.RazorAtSpec
import Verif.Spec.RazorBlockSpec
import Verif.Spec.RazorCallSpec
import Verif.Spec.RazorIgnoreSpec
import Verif.Spec.RazorIndexedSpec
import Verif.Spec.RazorLinesSpec
import Verif.Spec.RazorNameSpec
import Verif.Spec.RazorParenSpec
import Verif.Spec.RazorPartsSpec
import Verif.Spec.RazorSingleSpec
import Verif.Spec.RazorTemplateSpec
import Verif.Spec.RazorWordSpec
import Verif.Spec.RegexOrderSpec
import Verif.Spec.RegexSpec
import Verif.Spec.RegisteredSpec
import Verif.Spec.RoundingSpec
import Verif.Spec.RuleSpec
import Verif.Spec.ScriptSpec
import Verif.Spec.SignatureSpec
import Verif.Spec.SliceSpec
import Verif.Spec.SourceSpec
import Verif.Spec.SpreadSpec
import Verif.Spec.SprigSpec
import Verif.Spec.StringSpec
import Verif.Spec.TableSpec
import Verif.Spec.TemplateGrammar
import Verif.Spec.TextFuncsSpec
import Verif.Spec.TreeSpec
import Verif.Spec.UserFuncSpec
import Verif.Spec.WrapSpec
