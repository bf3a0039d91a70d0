import Verif.ReplaceableProps
import Verif.CacheFnProps
import Verif.CacheValProps
import Verif.CacheRegProps
import Verif.LogNormalProps
import Verif.LogNormalSums
import Verif.LogNormalFnProps
import Verif.FunctionsProps
import Verif.FragilityProps
import Verif.FatesProps
import Verif.StructureProps
import Verif.CompListProps
import Verif.MaqProps
import Verif.MaqCover
import Verif.SettingsProps
import Verif.StatsProps
import Verif.TallyModel
import Verif.TallyProps
import Verif.GraphFails
import Verif.GroupProps
import Verif.ParForProps
import Verif.InterpProps
import Verif.RatesGroup
import Verif.RatesCost
import Verif.RatesParts
import Verif.RatesPartsError
import Verif.NestSlat
import Verif.RecModel
import Verif.RecSpec
import Verif.RecLemmas
import Verif.RecProps
import Verif.PyProps
import Verif.PyEnumProps
import Verif.RecCostsLemmas
import Verif.RecCosts
import Verif.RecOther
import Verif.RangesModel
import Verif.RangesProps
import Verif.NamesModel
import Verif.NamesSpec
import Verif.NamesLemmas
import Verif.NamesSteps
import Verif.NamesProps
import Verif.NamesFails
import Verif.MakeModel
import Verif.MakeProps
import Verif.ImportModel
import Verif.ImportProps
import Verif.TuneModel
import Verif.TuneProps
import Verif.OutputModel
import Verif.OutputProps
import Verif.MaqFModel
import Verif.MaqFSearch
import Verif.MaqFLoop
import Verif.MaqFRound
import Verif.MaqFSign
import Verif.MaqFTrunc
import Verif.MaqFError
import Verif.MaqFExact
import Verif.MaqFProps
import Verif.AccelModel
import Verif.AccelLemmas
import Verif.AccelProps
import Verif.ContextModel
import Verif.ContextLemmas
import Verif.ContextProps
import Verif.LnFModel
import Verif.LnFSpec
import Verif.LnFNear
import Verif.LnFLemmas
import Verif.LnFRound
import Verif.LnFProps
import Verif.DerivModel
import Verif.DefineModel
import Verif.DefineProps
import Verif.DerivLemmas
import Verif.DerivRound
import Verif.DerivProps
import Verif.CurveFModel
import Verif.CurveFLemmas
import Verif.CurveFShape
import Verif.CurveFRound
import Verif.CurveFProps
import Verif.CurveFTable
import Verif.CurveFDist
import Verif.DiscModel
import Verif.DiscProps
import Verif.SinkModel
import Verif.SinkLemmas
import Verif.SinkProps
import Verif.SafeModel
import Verif.SafeSpec
import Verif.SafeLemmas
import Verif.SafeProps
import Verif.LexModel
import Verif.LexSpec
import Verif.LexRx
import Verif.LexLemmas
import Verif.LexSteps
import Verif.LexWritten
import Verif.LexProps
import Verif.StrModel
import Verif.StrSpec
import Verif.StrProps
import Verif.GramModel
import Verif.GramLL
import Verif.GramUniq
import Verif.GramSpec
import Verif.GramWrite
import Verif.GramText
import Verif.GramOnly
import Verif.GramProps
import Verif.GramFails
import Verif.SessionModel
import Verif.SessionSpec
import Verif.SessionLemmas
import Verif.SessionProps
import Verif.SessionPlain
import Verif.SessionPlainSpec
import Verif.SessionPlainLemmas
import Verif.SessionStock
import Verif.SessionBuilt
import Verif.SessionEnds
import Verif.SessionPlainProps
import Verif.SessionGroupProps
import Verif.SessionPrintSpec
import Verif.SessionPrintProps
import Verif.SessionRates
import Verif.SessionRatesSpec
import Verif.SessionRatesLemmas
import Verif.SessionRatesSample
import Verif.SessionRatesProps
import Verif.SessionStructSpec
import Verif.SessionStructLemmas
import Verif.SessionStructSample
import Verif.SessionStructProps
import Verif.SessionNormalProps
import Verif.SessionNames
import Verif.SessionSplitSpec
import Verif.SessionSplitLemmas
import Verif.SessionSplitSample
import Verif.SessionSplitProps
import Verif.SessionLedgerSpec
import Verif.SessionLedgerLemmas
import Verif.SessionLedgerProps
import Verif.SessionTextModel
import Verif.SessionTextSpec
import Verif.SessionTextLemmas
import Verif.SessionTextProps
import Verif.SessionVarsSpec
import Verif.SessionVarsLemmas
import Verif.SessionVarsProps
import Verif.SessionMemoryModel
import Verif.SessionMemorySpec
import Verif.SessionMemoryLemmas
import Verif.SessionMemorySim
import Verif.SessionMemoryProps
import Verif.SessionStaleLemmas
import Verif.SessionStaleProps
import Verif.SessionPriceSpec
import Verif.SessionPriceLemmas
import Verif.SessionPriceProps
import Verif.DescribeModel
import Verif.DescribeProps
import Verif.LookupModel
import Verif.LookupProps
import Verif.DescribeGroupModel
import Verif.DescribeGroupProps
