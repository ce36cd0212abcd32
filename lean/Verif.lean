import Verif.Model.Core
import Verif.Model.Combinators
import Verif.Model.Elements
import Verif.Model.Repeat
import Verif.Model.Chain
import Verif.Props.Laws
import Verif.Props.Operators
import Verif.Props.Elements
import Verif.Spec.Repeat
import Verif.Lemmas.Repeat
import Verif.Props.Repeat
import Verif.Props.Termination
import Verif.Props.Chain
import Verif.Spec.Built
import Verif.Lemmas.Built
import Verif.Lemmas.BuiltTame
import Verif.Lemmas.BuiltPos
import Verif.Props.Built
import Verif.Model.Cache
import Verif.Props.Cache
import Verif.Model.CacheGrammar
import Verif.Spec.CacheGrammar
import Verif.Lemmas.CacheGrammar
import Verif.Props.CacheGrammar
import Verif.Lemmas.CacheRun
import Verif.Model.CrondCache
import Verif.Lemmas.CrondCache
import Verif.Model.ToysCache
import Verif.Lemmas.ToysCache
import Verif.Props.CacheUse
import Verif.Lemmas.Text
import Verif.Model.Crond
import Verif.Spec.Crond
import Verif.Lemmas.CrondParse
import Verif.Props.Crond
import Verif.Props.CrondEval
import Verif.Props.CrondSchedule
import Verif.Spec.Calendar
import Verif.Lemmas.Calendar
import Verif.Props.CrondCalendar
import Verif.Props.CrondZone
import Verif.Model.Toys
import Verif.Lemmas.Toys
import Verif.Spec.Toys
import Verif.Props.Toys
import Verif.Model.Uri
import Verif.Lemmas.TextCount
import Verif.Lemmas.UriChars
import Verif.Lemmas.Uri
import Verif.Lemmas.UriIpv6
import Verif.Lemmas.UriIpv6Complete
import Verif.Lemmas.UriParts
import Verif.Lemmas.UriComplete
import Verif.Spec.Uri
import Verif.Lemmas.UriShow
import Verif.Lemmas.UriRest
import Verif.Props.Uri
import Verif.Props.UriIpv6
import Verif.Props.UriPath
import Verif.Props.UriAbsolute
import Verif.Lemmas.Below
import Verif.Lemmas.OneItem
import Verif.Model.HoconValue
import Verif.Model.Unicode
import Verif.Model.HoconParse
import Verif.Model.HoconResolve
import Verif.Spec.Hocon
import Verif.Spec.HoconText
import Verif.Spec.HoconResolve
import Verif.Lemmas.HoconValue
import Verif.Lemmas.HoconExpand
import Verif.Lemmas.HoconParse
import Verif.Lemmas.HoconPath
import Verif.Lemmas.HoconText
import Verif.Lemmas.HoconScalar
import Verif.Lemmas.HoconDoc
import Verif.Lemmas.HoconResolve
import Verif.Lemmas.HoconBad
import Verif.Props.Hocon
import Verif.Model.Json
import Verif.Spec.Json
import Verif.Lemmas.Json
import Verif.Lemmas.JsonString
import Verif.Lemmas.JsonValue
import Verif.Lemmas.JsonComplete
import Verif.Lemmas.JsonKinds
import Verif.Lemmas.JsonPrint
import Verif.Lemmas.JsonStrict
import Verif.Props.Json
import Verif.Model.JsonBench
import Verif.Spec.JsonBench
import Verif.Lemmas.JsonBench
import Verif.Props.JsonBench
import Verif.Lemmas.ChainText
import Verif.Model.Calculator
import Verif.Spec.Calculator
import Verif.Lemmas.CalcValue
import Verif.Lemmas.CalcChain
import Verif.Lemmas.Calculator
import Verif.Props.Calculator
import Verif.Model.ToysParse
import Verif.Spec.ToysText
import Verif.Lemmas.ToysToken
import Verif.Lemmas.ToysChain
import Verif.Lemmas.ToysList
import Verif.Lemmas.ToysExpr
import Verif.Lemmas.ToysLine
import Verif.Lemmas.ToysLineReads
import Verif.Lemmas.ToysProgram
import Verif.Props.ToysParse
import Verif.Lemmas.Utf8
import Verif.Lemmas.Live
import Verif.Lemmas.Calm
import Verif.Spec.HoconLoad
import Verif.Lemmas.HoconLive
import Verif.Lemmas.HoconCalm
import Verif.Lemmas.HoconYields
import Verif.Lemmas.HoconLoad
import Verif.Lemmas.HoconOdd
import Verif.Props.HoconLoad
import Verif.Tests.Parser
import Verif.Tests.ParserDocs
import Verif.Tests.Crond
import Verif.Tests.Toys
import Verif.Tests.Hocon
import Verif.Tests.Examples
import Verif.Spec.HoconString
import Verif.Lemmas.HoconString
import Verif.Props.HoconString
import Verif.Spec.Follow
import Verif.Spec.HoconLayout
import Verif.Lemmas.HoconLayout
import Verif.Lemmas.HoconMisread
import Verif.Props.HoconLayout
import Verif.Spec.HoconJson
import Verif.Lemmas.HoconJson
import Verif.Props.HoconJson
import Verif.Model.HoconDisplay
import Verif.Spec.HoconDisplay
import Verif.Lemmas.HoconDisplay
import Verif.Props.HoconDisplay
import Verif.Model.HoconAccess
import Verif.Props.HoconAccess
import Verif.Model.HoconNumber
import Verif.Spec.HoconNumber
import Verif.Props.HoconNumber
import Verif.Props.HoconMore
import Verif.Props.LawsMore
import Verif.Props.HoconError
import Verif.Props.HoconReferences
import Verif.Props.HoconRepeat
import Verif.Lemmas.HoconDotted
import Verif.Props.HoconDotted
import Verif.Lemmas.HoconSpaced
import Verif.Spec.Errors
import Verif.Lemmas.BuiltError
import Verif.Props.Errors
import Verif.Model.ParserParsers
import Verif.Props.ParserParsers
import Verif.Model.Regex
import Verif.Spec.Regex
import Verif.Lemmas.Regex
import Verif.Props.Regex
import Verif.Model.ParseResult
import Verif.Props.ParseResult
import Verif.Spec.HoconCombine
import Verif.Props.HoconCombine
import Verif.Props.UriOrder
import Verif.Props.ToysShow
import Verif.Props.ToysDemo
import Verif.Spec.ToysNames
import Verif.Lemmas.ToysNames
import Verif.Props.ToysNames
import Verif.Spec.HoconShape
import Verif.Lemmas.HoconShape
import Verif.Spec.HoconExpand
import Verif.Spec.HoconAnswers
import Verif.Lemmas.HoconMeaning
import Verif.Lemmas.HoconEq
import Verif.Props.HoconMeaning
import Verif.Props.HoconLines
import Verif.Props.HoconDots
import Verif.Props.HoconOverride
import Verif.Props.HoconComments
import Verif.Props.HoconOrder
import Verif.Spec.ToysFunctions
import Verif.Lemmas.ToysFunctions
import Verif.Props.ToysFunctions
import Verif.Spec.Twins
import Verif.Lemmas.Twins
import Verif.Props.Twins
import Verif.Spec.Peg
import Verif.Spec.PegLanguage
import Verif.Spec.OperatorTable
import Verif.Props.Peg
import Verif.Props.PegTotal
import Verif.Props.PegPredictive
import Verif.Props.PegLanguage
import Verif.Props.OperatorTable
import Verif.Props.CacheWork
import Verif.Spec.ErrorPosition
import Verif.Props.ErrorPosition
import Verif.Model.Steps
import Verif.Spec.PegSteps
import Verif.Props.LinearTime
import Verif.Spec.PegTicks
import Verif.Props.LinearTicks
import Verif.Spec.ToysRewrite
import Verif.Lemmas.ToysRewrite
import Verif.Props.ToysRewrite
import Verif.Spec.Recoded
import Verif.Lemmas.Recoded
import Verif.Props.Recoded
import Verif.Spec.Lookahead
import Verif.Lemmas.Lookahead
import Verif.Props.Lookahead
import Verif.Spec.CrondSame
import Verif.Props.CrondSame
import Verif.Model.JsonSteps
import Verif.Lemmas.Fair
import Verif.Spec.JsonTicks
import Verif.Props.JsonSteps
import Verif.Props.JsonTicks
import Verif.Model.CalcSteps
import Verif.Lemmas.CalcSteps
import Verif.Props.CalcSteps
import Verif.Spec.CalcTicks
import Verif.Props.CalcTicks
import Verif.Model.CrondSteps
import Verif.Props.CrondSteps
import Verif.Spec.CrondTicks
import Verif.Props.CrondTicks
import Verif.Spec.CacheTicks
import Verif.Lemmas.CacheTicks
import Verif.Spec.CacheSteps
import Verif.Props.CacheSteps
import Verif.Spec.CrondCacheTicks
import Verif.Props.CrondCacheTicks
import Verif.Model.UriSteps
import Verif.Lemmas.Lin
import Verif.Props.UriSteps
import Verif.Spec.UriTicks
import Verif.Props.UriTicks
import Verif.Model.HoconSteps
import Verif.Spec.HoconNested
import Verif.Lemmas.HoconNested
import Verif.Props.HoconSteps
import Verif.Lemmas.HoconPoly
import Verif.Props.HoconBound
import Verif.Props.HoconNotes
import Verif.Spec.Plain
import Verif.Lemmas.Pow
import Verif.Props.Plain
import Verif.Spec.HoconTicks
import Verif.Props.HoconTicks
import Verif.Spec.ToysMeaning
import Verif.Props.ToysMeaning
import Verif.Spec.ToysTypes
import Verif.Props.ToysTypes
import Verif.Spec.ToysEnds
import Verif.Props.ToysEnds
import Verif.Spec.OperatorTicks
import Verif.Lemmas.OperatorSteps
import Verif.Props.OperatorSteps
import Verif.Spec.ToysTicks
import Verif.Props.ToysCalls
import Verif.Spec.Depth
import Verif.Props.Depth
