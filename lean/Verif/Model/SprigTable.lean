import Verif.Model.FuncTable
import Verif.Base.Chars
/-!
# The functions of sprig

Model of `addSprigFuncs` (template/extra_sprig.go:37-69): the functions of a library are registered under the names of a documentation. The
orders of the iterations over maps are not determined.
-/

namespace Verif
namespace SprigTable
open FuncTable

/-- An entry of `sprigFuncRef`, extra_sprig.go:71-74. Simplification: the arguments and the description are one text. -/
structure Info where
  group : Text
  doc : Text
  aliases : List Text
  deriving DecidableEq

variable {α : Type}

/-- The map of aliases, extra_sprig.go:40-45, for an order of the iteration over the documentation. -/
def aliasMap (order : List (Text × Info)) : GoMap Text :=
  order.foldl (fun m e => e.2.aliases.foldl (fun m a => m.set a e.1) m) []

/-- What `sprigFuncRef[key]` gives, the zero value when there is no entry. -/
def lookup (ref : GoMap Info) (key : Text) : Info := (ref.get? key).getD ⟨[], [], []⟩

/-- The body of the loop over the library, extra_sprig.go:48-66: the name and the function to register, if any. -/
def entryOf (ref : GoMap Info) (aliases : GoMap Text) (e : Text × α) : Option (Text × Func α) :=
  let info := lookup ref e.1
  if info.group = [] ∧ c!"must" <+: e.1 then none
  else if info.group = [] then
    let main := (aliases.get? e.1).getD []
    if main = [] then none
    else
      let info := lookup ref main
      some (main, ⟨main, e.2, info.doc, [], info.aliases⟩)
  else some (e.1, ⟨e.1, e.2, info.doc, [], info.aliases⟩)

/-- The loop over the library, extra_sprig.go:47-67, for an order of the iteration. -/
def register (ref : GoMap Info) (aliases : GoMap Text) (order : List (Text × α)) : Table α :=
  order.foldl (fun fs e => match entryOf ref aliases e with
    | none => fs
    | some (n, f) => fs.set n (.direct f)) []

/-- `sprigFuncs`, extra_sprig.go:38-67: `fs` is what may be built, for some orders of the two iterations. -/
def Builds (ref : GoMap Info) (lib : GoMap α) (fs : Table α) : Prop :=
  ∃ o₁ o₂, o₁.Perm ref ∧ o₂.Perm lib ∧ fs = register ref (aliasMap o₁) o₂

/-- The map of the functions of sprig as the templates of a process find it, extra_sprig.go:31-68: built for the first one, and changed by each
of those that use it, whatever their tables are. -/
inductive Found (ref : GoMap Info) (lib : GoMap α) : Table α → Prop where
  | built {fs : Table α} : Builds ref lib fs → Found ref lib fs
  | used {fs t : Table α} {s : Table α × Table α} : Found ref lib fs → Runs fs.keys (fs, t) [] s → Found ref lib s.1

/-- The table `t` of a template becomes `r` when the functions of sprig are added, extra_sprig.go:68. -/
def AddsSprig (ref : GoMap Info) (lib : GoMap α) (t r : Table α) : Prop :=
  ∃ fs, Found ref lib fs ∧ Adds t fs r

/-- The names of the documentation with their aliases, extra_sprig.go:75-288. All of them have a group. -/
def documented : List (Text × List Text) :=
  [(c!"hello", []), (c!"ago", []), (c!"date_modify", []), (c!"date", []), (c!"dateInZone", [c!"date_in_zone"]), (c!"dateModify", []),
    (c!"duration", []), (c!"durationRound", []), (c!"htmlDate", []), (c!"htmlDateInZone", []), (c!"now", []), (c!"toDate", []), (c!"unixEpoch", []),
    (c!"abbrev", []), (c!"abbrevboth", []), (c!"camelcase", []), (c!"cat", []), (c!"containsSprig", [c!"contains"]), (c!"hasPrefix", []),
    (c!"hasSuffix", []), (c!"indentSprig", [c!"indent"]), (c!"initials", []), (c!"kebabcase", []), (c!"lower", []),
    (c!"nindentSprig", [c!"nindent"]), (c!"nospace", []), (c!"plural", []), (c!"quote", []), (c!"randAlpha", []), (c!"randAlphaNum", []),
    (c!"randAscii", []), (c!"randNumeric", []), (c!"repeatSprig", [c!"repeat"]), (c!"replace", []), (c!"shuffle", []), (c!"snakecase", []),
    (c!"squote", []), (c!"substr", []), (c!"swapcase", []), (c!"title", []), (c!"toString", []), (c!"trim", []), (c!"trimAll", [c!"trimall"]),
    (c!"trimPrefix", []), (c!"trimSuffix", []), (c!"truncSprig", [c!"trunc"]), (c!"untitle", []), (c!"upper", []), (c!"wrapSprig", [c!"wrap"]),
    (c!"wrapWith", []), (c!"atoi", []), (c!"float64", []), (c!"int64", []), (c!"intSprig", [c!"int"]), (c!"toDecimal", []), (c!"join", []),
    (c!"sortAlpha", []), (c!"split", []), (c!"splitList", []), (c!"splitn", []), (c!"toStrings", []), (c!"add1", []), (c!"add1f", []),
    (c!"addf", []), (c!"addSprig", [c!"add"]), (c!"ceilSprig", [c!"ceil"]), (c!"divf", []), (c!"divSprig", [c!"div"]), (c!"floorSprig", [c!"floor"]),
    (c!"maxf", []), (c!"maxSprig", [c!"max", c!"biggest", c!"biggestSprig"]), (c!"minf", []), (c!"minSprig", [c!"min"]), (c!"modSprig", [c!"mod"]),
    (c!"mulf", []), (c!"mulSprig", [c!"mul"]), (c!"randInt", []), (c!"round", []), (c!"subf", []), (c!"subSprig", [c!"sub"]), (c!"seq", []),
    (c!"until", [c!"until"]), (c!"untilStep", []), (c!"coalesce", []), (c!"compact", []), (c!"default", []), (c!"empty", []),
    (c!"fromJsonSprig", [c!"fromJson"]), (c!"ternarySprig", [c!"ternary"]), (c!"toJsonSprig", [c!"toJson"]),
    (c!"toPrettyJsonSprig", [c!"toPrettyJson"]), (c!"toRawJson", []), (c!"deepEqual", []), (c!"kindIs", [c!"kindis"]), (c!"kindOf", [c!"kindof"]),
    (c!"typeIs", [c!"typeis"]), (c!"typeIsLike", [c!"typeisLike"]), (c!"typeOf", [c!"typeof"]), (c!"env", []), (c!"expandenv", []), (c!"base", []),
    (c!"clean", []), (c!"dir", []), (c!"ext", []), (c!"isAbs", []), (c!"osBase", []), (c!"osClean", []), (c!"osDir", []), (c!"osExt", []),
    (c!"osIsAbs", []), (c!"b32dec", []), (c!"b32enc", []), (c!"b64dec", []), (c!"b64enc", []), (c!"deepCopy", []), (c!"dictSprig", [c!"dict"]),
    (c!"dig", []), (c!"getSprig", [c!"get"]), (c!"hasKeySprig", [c!"hasKey"]), (c!"keysSprig", [c!"keys"]),
    (c!"listSprig", [c!"list", c!"tuple", c!"tupleSprig"]), (c!"mergeOverwrite", []), (c!"mergeSprig", [c!"merge"]), (c!"omitSprig", [c!"omit"]),
    (c!"pickSprig", [c!"pick"]), (c!"pluckSprig", [c!"pluck"]), (c!"setSprig", [c!"set"]), (c!"unsetSprig", [c!"unset"]),
    (c!"valuesSprig", [c!"values"]), (c!"all", [c!"without"]), (c!"any", []), (c!"appendSprig", [c!"append"]), (c!"chunk", []),
    (c!"concatSprig", [c!"concat"]), (c!"first", []), (c!"hasSprig", [c!"has"]), (c!"initialSprig", [c!"initial"]), (c!"last", []),
    (c!"prependSprig", [c!"prepend"]), (c!"pushSprig", [c!"push"]), (c!"restSprig", [c!"rest"]), (c!"reverseSprig", [c!"reverse"]),
    (c!"sliceSprig", [c!"slice"]), (c!"uniqSprig", [c!"uniq"]), (c!"withoutSprig", [c!"without"]), (c!"adler32sum", []), (c!"bcrypt", []),
    (c!"buildCustomCert", []), (c!"decryptAES", []), (c!"derivePassword", []), (c!"encryptAES", []), (c!"genCA", []), (c!"genCAWithKey", []),
    (c!"genPrivateKey", []), (c!"genSelfSignedCert", []), (c!"genSelfSignedCertWithKey", []), (c!"genSignedCert", []),
    (c!"genSignedCertWithKey", []), (c!"htpasswd", []), (c!"randBytes", []), (c!"sha1sum", []), (c!"sha256sum", []), (c!"sha512sum", []),
    (c!"uuidv4", [c!"uuid", c!"guid", c!"GUID"]), (c!"semver", []), (c!"semverCompare", []), (c!"fail", []), (c!"regexFind", []),
    (c!"regexFindAll", []), (c!"regexMatch", []), (c!"regexQuoteMeta", []), (c!"regexReplaceAll", []), (c!"regexReplaceAllLiteral", []),
    (c!"regexSplit", []), (c!"urlJoin", []), (c!"urlParse", []), (c!"getHostByName", [])]

/-- `sprigFuncRef`, extra_sprig.go:71-289. Simplification: the groups and the descriptions are not the ones of the code, which do not count here. -/
def sprigFuncRef : GoMap Info := documented.map (fun e => (e.1, ⟨c!"Sprig", [], e.2⟩))

end SprigTable
end Verif
