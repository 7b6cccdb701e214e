import Verif.Model.FuncTable
import Verif.Model.Addons
/-!
# The functions of the addons

The tables of template/extra_*.go and their registration (`AddFunctions`, template/func_table.go:206-226, called by `addMathFuncs`,
`addDataFuncs`...). A Go function is represented by its name; the functions that are written in place are represented by the function of the log
that they call, or by their key. The functions of sprig are in `SprigTable`.
-/

namespace Verif
namespace Registered
open FuncTable Addons

/-- `mathBaseFuncs`, extra_math.go:17-37. -/
def mathBaseFuncs : List (Text × Text) := [
    (c!"add", c!"add"), (c!"ceil", c!"ceil"), (c!"cbrt", c!"cbrt"), (c!"dim", c!"dim"), (c!"div", c!"divide"), (c!"exp", c!"exp"),
    (c!"exp2", c!"exp2"), (c!"expm1", c!"expm1"), (c!"floor", c!"floor"), (c!"mod", c!"modulo"), (c!"modf", c!"modf"), (c!"mul", c!"multiply"),
    (c!"pow", c!"power"), (c!"pow10", c!"power10"), (c!"rem", c!"remainder"), (c!"sub", c!"subtract"), (c!"trunc", c!"trunc"), (c!"int", c!"func int")]

/-- `mathStatFuncs`, extra_math.go:39-43. -/
def mathStatFuncs : List (Text × Text) := [
    (c!"avg", c!"average"), (c!"max", c!"max"), (c!"min", c!"min")]

/-- `mathTrigFuncs`, extra_math.go:45-74. -/
def mathTrigFuncs : List (Text × Text) := [
    (c!"acos", c!"acos"), (c!"acosh", c!"acosh"), (c!"asin", c!"asin"), (c!"asinh", c!"asinh"), (c!"atan", c!"atan"), (c!"atan2", c!"atan2"),
    (c!"atanh", c!"atanh"), (c!"cos", c!"cos"), (c!"cosh", c!"cosh"), (c!"deg", c!"deg"), (c!"ilogb", c!"ilogb"), (c!"j0", c!"j0"), (c!"j1", c!"j1"),
    (c!"jn", c!"jn"), (c!"log", c!"logFunc"), (c!"log10", c!"log10"), (c!"log1p", c!"log1p"), (c!"log2", c!"log2"), (c!"logb", c!"logb"),
    (c!"rad", c!"rad"), (c!"sin", c!"sin"), (c!"sincos", c!"sincos"), (c!"sinh", c!"sinh"), (c!"tan", c!"tan"), (c!"tanh", c!"tanh"),
    (c!"y0", c!"y0"), (c!"y1", c!"y1"), (c!"yn", c!"yn")]

/-- `mathBitsFuncs`, extra_math.go:76-83. -/
def mathBitsFuncs : List (Text × Text) := [
    (c!"band", c!"bitwiseAnd"), (c!"bclear", c!"bitwiseClear"), (c!"bor", c!"bitwiseOr"), (c!"bxor", c!"bitwiseXor"), (c!"lshift", c!"leftShift"),
    (c!"rshift", c!"rightShift")]

/-- `mathUtilFuncs`, extra_math.go:85-101. -/
def mathUtilFuncs : List (Text × Text) := [
    (c!"abs", c!"abs"), (c!"dec", c!"decimal"), (c!"frexp", c!"frexp"), (c!"gamma", c!"gamma"), (c!"hex", c!"hex"), (c!"hypot", c!"hypot"),
    (c!"isInf", c!"isInfinity"), (c!"isNaN", c!"isNaN"), (c!"ldexp", c!"ldexp"), (c!"lgamma", c!"lgamma"), (c!"nextAfter", c!"nextAfter"),
    (c!"signBit", c!"signBit"), (c!"sqrt", c!"sqrt"), (c!"to", c!"to"), (c!"until", c!"until")]

/-- `dataFuncsBase`, extra_data.go:23-67. -/
def dataFuncsBase : List (Text × Text) := [
    (c!"String", c!"toStringClass"), (c!"append", c!"addElements"), (c!"array", c!"array"), (c!"bool", c!"multilogger.ParseBool"),
    (c!"char", c!"toChar"), (c!"contains", c!"contains"), (c!"containsStrict", c!"containsStrict"), (c!"content", c!"content"),
    (c!"dict", c!"createDict"), (c!"extract", c!"extract"), (c!"find", c!"find"), (c!"findStrict", c!"findStrict"), (c!"get", c!"get"),
    (c!"hasKey", c!"hasKey"), (c!"initial", c!"initial"), (c!"intersect", c!"intersect"), (c!"isNil", c!"func isNil"), (c!"isSet", c!"func isSet"),
    (c!"isZero", c!"isZero"), (c!"key", c!"key"), (c!"keys", c!"keys"), (c!"lenc", c!"utf8.RuneCountInString"), (c!"list", c!"collections.NewList"),
    (c!"merge", c!"merge"), (c!"omit", c!"omit"), (c!"pick", c!"pick"), (c!"pickv", c!"pickv"), (c!"pluck", c!"pluck"), (c!"prepend", c!"prepend"),
    (c!"rest", c!"rest"), (c!"reverse", c!"reverse"), (c!"removeEmpty", c!"removeEmpty"), (c!"removeNil", c!"removeNil"),
    (c!"safeIndex", c!"safeIndex"), (c!"set", c!"set"), (c!"slice", c!"slice"), (c!"string", c!"toString"), (c!"undef", c!"collections.IfUndef"),
    (c!"unique", c!"unique"), (c!"union", c!"union"), (c!"unset", c!"unset"), (c!"values", c!"values"), (c!"without", c!"without")]

/-- `dataFuncsConversion`, extra_data.go:69-82. -/
def dataFuncsConversion : List (Text × Text) := [
    (c!"toBash", c!"collections.ToBash"), (c!"toHcl", c!"toHCL"), (c!"toInternalHcl", c!"toInternalHCL"), (c!"toJson", c!"toJSON"),
    (c!"toPrettyHcl", c!"toPrettyHCL"), (c!"toPrettyJson", c!"toPrettyJSON"), (c!"toPrettyTFVars", c!"toPrettyTFVars"),
    (c!"toQuotedHcl", c!"toQuotedHCL"), (c!"toQuotedJson", c!"toQuotedJSON"), (c!"toQuotedTFVars", c!"toQuotedTFVars"), (c!"toTFVars", c!"toTFVars"),
    (c!"toYaml", c!"toYAML")]

/-- `loggingFuncs`, extra_logging.go:23-45. -/
def loggingFuncs : List (Text × Text) := [
    (c!"trace", c!"TemplateLog.Trace"), (c!"debug", c!"TemplateLog.Debug"), (c!"info", c!"TemplateLog.Info"), (c!"warning", c!"TemplateLog.Warning"),
    (c!"error", c!"TemplateLog.Error"), (c!"fatal", c!"TemplateLog.Fatal"), (c!"panic", c!"TemplateLog.Panic"), (c!"notice", c!"TemplateLog.Info"),
    (c!"critical", c!"TemplateLog.Error")]

/-- `funcs`, extra_runtime.go:131-157. -/
def runtimeFuncs : List (Text × Text) := [
    (c!"alias", c!"t.alias"), (c!"aliases", c!"t.getAliases"), (c!"allFunctions", c!"t.getAllFunctions"), (c!"assert", c!"assertError"),
    (c!"assertWarning", c!"assertWarning"), (c!"categories", c!"t.getCategories"), (c!"completeExamples", c!"t.completeExamples"),
    (c!"current", c!"t.current"), (c!"ellipsis", c!"t.ellipsis"), (c!"exec", c!"t.execCommand"), (c!"exit", c!"exit"), (c!"func", c!"t.defineFunc"),
    (c!"function", c!"t.getFunction"), (c!"functions", c!"t.getFunctions"), (c!"getAttributes", c!"getAttributes"), (c!"getMethods", c!"getMethods"),
    (c!"getSignature", c!"getSignature"), (c!"include", c!"t.include"), (c!"localAlias", c!"t.localAlias"), (c!"raise", c!"raise"),
    (c!"run", c!"t.runCommand"), (c!"substitute", c!"t.substitute"), (c!"templateNames", c!"t.getTemplateNames"), (c!"templates", c!"t.Templates"),
    (c!"userContext", c!"t.cloneUserContext")]

/-- `utilsFuncs`, extra_utils.go:19-40. -/
def utilsFuncs : List (Text × Text) := [
    (c!"center", c!"center"), (c!"color", c!"multicolor.Sprint"), (c!"colorln", c!"multicolor.Sprintln"), (c!"concat", c!"collections.Concat"),
    (c!"formatList", c!"utils.FormatList"), (c!"id", c!"id"), (c!"iif", c!"collections.IIf"), (c!"joinLines", c!"collections.JoinLines"),
    (c!"lorem", c!"lorem"), (c!"mergeList", c!"utils.MergeLists"), (c!"repeat", c!"repeat"), (c!"indent", c!"indent"), (c!"nIndent", c!"nIndent"),
    (c!"raw", c!"rawPrint"), (c!"rawList", c!"rawList"), (c!"reCompile", c!"regexp.Compile"), (c!"sIndent", c!"sIndent"),
    (c!"splitLines", c!"collections.SplitLines"), (c!"stripColor", c!"striptColor"), (c!"wrap", c!"wrap")]

/-- `netFuncs`, extra_net.go:14-17. -/
def netFuncs : List (Text × Text) := [
    (c!"httpGet", c!"httpGet"), (c!"httpDoc", c!"httpDocument")]

/-- `osFuncs`, extra_os.go:20-42. -/
def osFuncs : List (Text × Text) := [
    (c!"diff", c!"diff"), (c!"exists", c!"fileExists"), (c!"glob", c!"glob"), (c!"group", c!"userGroup"), (c!"home", c!"userHome"),
    (c!"isDir", c!"isDir"), (c!"isExecutable", c!"isExecutable"), (c!"isFile", c!"isFile"), (c!"isReadable", c!"isReadable"),
    (c!"isWriteable", c!"isWriteable"), (c!"joinPath", c!"path.Join"), (c!"lastMod", c!"lastMod"), (c!"load", c!"loadFromFile"),
    (c!"lookPath", c!"lookPath"), (c!"mode", c!"fileMode"), (c!"pwd", c!"utils.Pwd"), (c!"save", c!"saveToFile"), (c!"size", c!"fileSize"),
    (c!"stat", c!"os.Stat"), (c!"user", c!"user.Current"), (c!"username", c!"username")]

/-- `gitFuncs`, extra_git.go:13-17. -/
def gitFuncs : List (Text × Text) := [
    (c!"currentBranch", c!"currentBranch"), (c!"currentCommit", c!"currentCommit"), (c!"origin", c!"origin")]

/-- The functions of the third call of `AddFunctions`, extra_data.go:272-277. -/
def dataFuncsLoad : List (Text × Text) := [
    (c!"data", c!"t.dataConverter"), (c!"hcl", c!"t.hclConverter"), (c!"json", c!"t.jsonConverter"), (c!"yaml", c!"t.yamlConverter")]

/-- `mathFuncsAliases`, extra_math.go:103-155. -/
def mathFuncsAliases : GoMap (List Text) := [
    (c!"abs", [c!"absolute"]), (c!"acos", [c!"arcCosine", c!"arcCosinus"]), (c!"acosh", [c!"arcHyperbolicCosine", c!"arcHyperbolicCosinus"]),
    (c!"add", [c!"sum"]), (c!"asin", [c!"arcSine", c!"arcSinus"]), (c!"asinh", [c!"arcHyperbolicSine", c!"arcHyperbolicSinus"]),
    (c!"atan", [c!"arcTangent"]), (c!"atan2", [c!"arcTangent2"]), (c!"atanh", [c!"arcHyperbolicTangent"]), (c!"avg", [c!"average"]),
    (c!"band", [c!"bitwiseAND"]), (c!"bclear", [c!"bitwiseClear"]), (c!"bor", [c!"bitwiseOR"]), (c!"bxor", [c!"bitwiseXOR"]),
    (c!"ceil", [c!"roundUp", c!"roundup"]), (c!"cos", [c!"cosine", c!"cosinus"]), (c!"cosh", [c!"hyperbolicCosine", c!"hyperbolicCosinus"]),
    (c!"dec", [c!"decimal"]), (c!"deg", [c!"degree"]), (c!"div", [c!"divide", c!"quotient"]), (c!"exp", [c!"exponent"]), (c!"exp2", [c!"exponent2"]),
    (c!"floor", [c!"roundDown", c!"rounddown", c!"int64", c!"integer64"]), (c!"hex", [c!"hexa", c!"hexaDecimal"]), (c!"hypot", [c!"hypotenuse"]),
    (c!"isInf", [c!"isInfinity"]), (c!"int", [c!"integer"]), (c!"j0", [c!"firstBessel0"]), (c!"j1", [c!"firstBessel1"]),
    (c!"jn", [c!"firstBesselN"]), (c!"lshift", [c!"leftShift"]), (c!"max", [c!"maximum", c!"biggest"]), (c!"min", [c!"minimum", c!"smallest"]),
    (c!"mod", [c!"modulo"]), (c!"mul", [c!"multiply", c!"prod", c!"product"]), (c!"pow", [c!"power"]), (c!"pow10", [c!"power10"]),
    (c!"rad", [c!"radian"]), (c!"rem", [c!"remainder"]), (c!"rshift", [c!"rightShift"]), (c!"sin", [c!"sine", c!"sinus"]),
    (c!"sincos", [c!"sineCosine", c!"sinusCosinus"]), (c!"sinh", [c!"hyperbolicSine", c!"hyperbolicSinus"]), (c!"sqrt", [c!"squareRoot"]),
    (c!"sub", [c!"subtract"]), (c!"tan", [c!"tangent"]), (c!"tanh", [c!"hyperbolicTangent"]), (c!"trunc", [c!"truncate"]),
    (c!"y0", [c!"secondBessel0"]), (c!"y1", [c!"secondBessel1"]), (c!"yn", [c!"secondBesselN"])]

/-- `dataFuncsAliases`, extra_data.go:140-164. -/
def dataFuncsAliases : GoMap (List Text) := [
    (c!"append", [c!"push"]), (c!"contains", [c!"has"]), (c!"containsStrict", [c!"hasStrict"]), (c!"data", [c!"DATA", c!"fromData", c!"fromDATA"]),
    (c!"dict", [c!"dictionary"]), (c!"hcl", [c!"HCL", c!"fromHcl", c!"fromHCL", c!"tfvars", c!"fromTFVars", c!"TFVARS", c!"fromTFVARS"]),
    (c!"isNil", [c!"isNull"]), (c!"isZero", [c!"isEmpty"]), (c!"json", [c!"JSON", c!"fromJson", c!"fromJSON"]), (c!"lenc", [c!"nbChars"]),
    (c!"list", [c!"tuple"]), (c!"toHcl", [c!"toHCL"]), (c!"toInternalHcl", [c!"toInternalHCL", c!"toIHCL", c!"toIHcl"]), (c!"toJson", [c!"toJSON"]),
    (c!"toPrettyHcl", [c!"toPrettyHCL"]), (c!"toPrettyJson", [c!"toPrettyJSON"]), (c!"toQuotedHcl", [c!"toQuotedHCL"]),
    (c!"toQuotedJson", [c!"toQuotedJSON"]), (c!"toYaml", [c!"toYAML"]), (c!"undef", [c!"ifUndef"]), (c!"unique", [c!"uniq"]),
    (c!"unset", [c!"delete", c!"remove"]), (c!"yaml", [c!"YAML", c!"fromYaml", c!"fromYAML"])]

/-- `loggingFuncsAliases`, extra_logging.go:49-61. -/
def loggingFuncsAliases : GoMap (List Text) := [
    (c!"debug", [c!"debugf"]), (c!"error", [c!"errorf"]), (c!"fatal", [c!"fatalf"]), (c!"info", [c!"infof"]), (c!"panic", [c!"panicf"]),
    (c!"trace", [c!"tracef"]), (c!"warning", [c!"warn", c!"warnf", c!"warningf"]), (c!"notice", [c!"noticef"]), (c!"critical", [c!"criticalf"])]

/-- `runtimeFuncsAliases`, extra_runtime.go:39-49. -/
def runtimeFuncsAliases : GoMap (List Text) := [
    (c!"assert", [c!"assertion"]), (c!"assertWarning", [c!"assertw"]), (c!"exec", [c!"execute"]), (c!"getAttributes", [c!"attr", c!"attributes"]),
    (c!"getMethods", [c!"methods"]), (c!"getSignature", [c!"sign", c!"signature"]), (c!"include", [c!"eval"]), (c!"raise", [c!"raiseError"]),
    (c!"userContext", [c!"c", c!"context"])]

/-- `utilsFuncsAliases`, extra_utils.go:58-70. -/
def utilsFuncsAliases : GoMap (List Text) := [
    (c!"center", [c!"centered"]), (c!"color", [c!"colored", c!"enhanced"]), (c!"id", [c!"identifier"]), (c!"iif", [c!"ternary"]),
    (c!"lorem", [c!"loremIpsum"]), (c!"nIndent", [c!"nindent"]), (c!"formatList", [c!"autoWrap", c!"aWrap", c!"awrap"]), (c!"raw", [c!"printRaw"]),
    (c!"sIndent", [c!"sindent", c!"spaceIndent", c!"autoIndent", c!"aindent", c!"aIndent"]),
    (c!"stripColor", [c!"stripansi", c!"stripANSI", c!"striptcolor"]), (c!"wrap", [c!"wrapped"])]

/-- `netFuncsAliases`, extra_net.go:24-26. -/
def netFuncsAliases : GoMap (List Text) := [
    (c!"httpDoc", [c!"httpDocument", c!"curl"])]

/-- `osFuncsAliases`, extra_os.go:59-75. -/
def osFuncsAliases : GoMap (List Text) := [
    (c!"diff", [c!"difference"]), (c!"exists", [c!"fileExists", c!"isExist"]), (c!"glob", [c!"expand"]), (c!"group", [c!"userGroup"]),
    (c!"home", [c!"homeDir", c!"homeFolder"]), (c!"isDir", [c!"isDirectory", c!"isFolder"]),
    (c!"lastMod", [c!"lastModification", c!"lastModificationTime"]), (c!"save", [c!"write", c!"writeTo"]),
    (c!"lookPath", [c!"whereIs", c!"look", c!"which", c!"type"]), (c!"mode", [c!"fileMode"]), (c!"pwd", [c!"currentDir"]),
    (c!"load", [c!"read", c!"readFrom"]), (c!"size", [c!"fileSize"]), (c!"stat", [c!"fileStat"]), (c!"user", [c!"currentUser"])]

/-- `gitFuncsAliases`, extra_git.go:25-25. -/
def gitFuncsAliases : GoMap (List Text) := []

/-- `mathFuncsArgs`, extra_math.go:157-219: the names of the arguments shown in the help. -/
def mathFuncsArgs : GoMap (List Text) := [
    (c!"abs", [c!"x"]), (c!"acos", [c!"x"]), (c!"acosh", [c!"x"]), (c!"asin", [c!"x"]), (c!"asinh", [c!"x"]), (c!"atan", [c!"x"]),
    (c!"atan2", [c!"x", c!"y"]), (c!"atanh", [c!"x"]), (c!"cbrt", [c!"x"]), (c!"ceil", [c!"x"]), (c!"copysign", [c!"x", c!"y"]), (c!"cos", [c!"x"]),
    (c!"cosh", [c!"x"]), (c!"dim", [c!"x", c!"y"]), (c!"erf", [c!"x"]), (c!"erfc", [c!"x"]), (c!"exp", [c!"x"]), (c!"exp2", [c!"x"]),
    (c!"expm1", [c!"x"]), (c!"float32bits", [c!"f"]), (c!"float32frombits", [c!"b"]), (c!"float64bits", [c!"f"]), (c!"float64frombits", [c!"b"]),
    (c!"floor", [c!"x"]), (c!"frexp", [c!"f"]), (c!"gamma", [c!"x"]), (c!"hypot", [c!"p", c!"q"]), (c!"ilogb", [c!"x"]), (c!"inf", [c!"sign"]),
    (c!"isInf", [c!"f"]), (c!"isNaN", [c!"f"]), (c!"j0", [c!"x"]), (c!"j1", [c!"x"]), (c!"jn", [c!"n", c!"x"]), (c!"ldexp", [c!"frac", c!"exp"]),
    (c!"lgamma", [c!"x"]), (c!"log", [c!"x"]), (c!"log10", [c!"x"]), (c!"log1p", [c!"x"]), (c!"log2", [c!"x"]), (c!"logb", [c!"x"]),
    (c!"max", [c!"x", c!"y"]), (c!"min", [c!"x", c!"y"]), (c!"mod", [c!"x", c!"y"]), (c!"modf", [c!"f"]), (c!"nextafter", [c!"x", c!"y"]),
    (c!"nextafter32", [c!"x", c!"y"]), (c!"pow", [c!"x", c!"y"]), (c!"pow10", [c!"n"]), (c!"remainder", [c!"x", c!"y"]), (c!"signbit", [c!"x"]),
    (c!"sin", [c!"x"]), (c!"sincos", [c!"x"]), (c!"sinh", [c!"x"]), (c!"sqrt", [c!"x"]), (c!"tan", [c!"x"]), (c!"tanh", [c!"x"]),
    (c!"trunc", [c!"x"]), (c!"y0", [c!"x"]), (c!"y1", [c!"x"]), (c!"yn", [c!"n", c!"x"])]

/-- A call of `AddFunctions`: the addon it is for, the functions and the option `FuncAliases`. -/
structure Call where
  addon : Opt
  funcs : List (Text × Text)
  aliases : GoMap (List Text)

/-- The calls, in the order of `addFuncs` (add_funcs.go:41-49), extra_math.go:324-337, extra_data.go:263-277, extra_logging.go:77-81,
extra_runtime.go:130-163, extra_utils.go:126-131, extra_net.go:33-38, extra_os.go:101-106, extra_git.go:33-38. -/
def calls : List Call := [
    ⟨.math, mathBaseFuncs, mathFuncsAliases⟩, ⟨.math, mathStatFuncs, mathFuncsAliases⟩, ⟨.math, mathTrigFuncs, mathFuncsAliases⟩,
    ⟨.math, mathBitsFuncs, mathFuncsAliases⟩, ⟨.math, mathUtilFuncs, mathFuncsAliases⟩, ⟨.data, dataFuncsBase, dataFuncsAliases⟩,
    ⟨.data, dataFuncsConversion, dataFuncsAliases⟩, ⟨.data, dataFuncsLoad, dataFuncsAliases⟩, ⟨.logging, loggingFuncs, loggingFuncsAliases⟩,
    ⟨.runtime, runtimeFuncs, runtimeFuncsAliases⟩, ⟨.utils, utilsFuncs, utilsFuncsAliases⟩, ⟨.net, netFuncs, netFuncsAliases⟩,
    ⟨.os, osFuncs, osFuncsAliases⟩, ⟨.git, gitFuncs, gitFuncsAliases⟩]

variable {α : Type}

/-- The body of the loop of `AddFunctions`, func_table.go:213-222. `lib` gives the functions, `doc` the description. -/
def funcOf (lib : Text → α) (doc : Text → Text) (aliases : GoMap (List Text)) (e : Text × Text) : Func α where
  name := []
  impl := lib e.2
  doc := doc e.1
  examples := []
  aliases := (aliases.get? e.1).getD []

/-- The map made by `AddFunctions`, func_table.go:206-223. Simplification: the examples are left out. -/
def Call.table (lib : Text → α) (doc : Text → Text) (c : Call) : Table α := c.funcs.map fun e => (e.1, .direct (funcOf lib doc c.aliases e))

/-- The functions of the addons that are on, added to what is there before (`addFuncs`, add_funcs.go:35-49). -/
def Registers (lib : Text → α) (doc : Text → Text) (s : Set') (t r : Table α) : Prop :=
  AddsAll t ((calls.filter (fun c => s c.addon)).map (Call.table lib doc)) r

end Registered
end Verif
