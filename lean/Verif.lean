import Verif.Lemmas.Builder
import Verif.Lemmas.Chain
import Verif.Lemmas.ChainBack
import Verif.Lemmas.ChainDrift
import Verif.Lemmas.ChainFound
import Verif.Lemmas.ChainKeeps
import Verif.Lemmas.ChainLinks
import Verif.Lemmas.ChainNested
import Verif.Lemmas.ChainOrder
import Verif.Lemmas.ChainRegular
import Verif.Lemmas.ChainScan
import Verif.Lemmas.ChainValid
import Verif.Lemmas.Consequences
import Verif.Lemmas.Container
import Verif.Lemmas.Copies
import Verif.Lemmas.CopiesCrop
import Verif.Lemmas.FailingReads
import Verif.Lemmas.Ghosts
import Verif.Lemmas.History
import Verif.Lemmas.Holes
import Verif.Lemmas.HolesExact
import Verif.Lemmas.Index
import Verif.Lemmas.Initiator
import Verif.Lemmas.Introspect
import Verif.Lemmas.KeyViews
import Verif.Lemmas.Loose
import Verif.Lemmas.MatchOps
import Verif.Lemmas.Matches
import Verif.Lemmas.Ordered
import Verif.Lemmas.Origin
import Verif.Lemmas.Over
import Verif.Lemmas.Pattern
import Verif.Lemmas.Processors
import Verif.Lemmas.Project
import Verif.Lemmas.Py
import Verif.Lemmas.Queries
import Verif.Lemmas.Raising
import Verif.Lemmas.Rebulk
import Verif.Lemmas.Registry
import Verif.Lemmas.RegistryChains
import Verif.Lemmas.Rules
import Verif.Lemmas.Sequence
import Verif.Lemmas.Slices
import Verif.Lemmas.Sort
import Verif.Lemmas.Steps
import Verif.Lemmas.Toposort
import Verif.Lemmas.Utils
import Verif.Model.Arguments
import Verif.Model.Assign
import Verif.Model.Builder
import Verif.Model.Callable
import Verif.Model.Chain
import Verif.Model.Consequences
import Verif.Model.Copies
import Verif.Model.Debug
import Verif.Model.Failing
import Verif.Model.FailingReads
import Verif.Model.FailingRules
import Verif.Model.Handles
import Verif.Model.IdentitySet
import Verif.Model.Iteration
import Verif.Model.KeyViews
import Verif.Model.LiveAnswers
import Verif.Model.Match
import Verif.Model.MatchOps
import Verif.Model.Matches
import Verif.Model.Pattern
import Verif.Model.Processors
import Verif.Model.Project
import Verif.Model.Py
import Verif.Model.Raising
import Verif.Model.Rebulk
import Verif.Model.Regexes
import Verif.Model.Registry
import Verif.Model.RuleLog
import Verif.Model.Rules
import Verif.Model.Sequence
import Verif.Model.Session
import Verif.Model.Threads
import Verif.Model.TypedKeys
import Verif.Model.Utils
import Verif.Props.Arguments
import Verif.Props.Assign
import Verif.Props.AssignRead
import Verif.Props.Builder
import Verif.Props.BuilderClosed
import Verif.Props.BuilderDicts
import Verif.Props.BuilderOptions
import Verif.Props.BuiltContainers
import Verif.Props.Callable
import Verif.Props.Chain
import Verif.Props.ChainDrift
import Verif.Props.ChainFound
import Verif.Props.ChainGroups
import Verif.Props.ChainLinks
import Verif.Props.ChainMore
import Verif.Props.ChainOrder
import Verif.Props.ChainScan
import Verif.Props.ChainValid
import Verif.Props.ConfiguredSearch
import Verif.Props.Consequences
import Verif.Props.Construct
import Verif.Props.Container
import Verif.Props.Copies
import Verif.Props.Coverage
import Verif.Props.Debug
import Verif.Props.Failing
import Verif.Props.FailingExact
import Verif.Props.FailingHistories
import Verif.Props.FailingReads
import Verif.Props.FailingRules
import Verif.Props.Ghosts
import Verif.Props.GroupSearch
import Verif.Props.Handles
import Verif.Props.History
import Verif.Props.Holes
import Verif.Props.HolesExact
import Verif.Props.IdentitySet
import Verif.Props.Introspect
import Verif.Props.Iteration
import Verif.Props.KeyViews
import Verif.Props.ListValues
import Verif.Props.LiveAnswers
import Verif.Props.Locality
import Verif.Props.LocalityDefault
import Verif.Props.Match
import Verif.Props.MaxEnd
import Verif.Props.Origin
import Verif.Props.OwnRules
import Verif.Props.PartSearch
import Verif.Props.Pattern
import Verif.Props.PatternOrder
import Verif.Props.PatternRun
import Verif.Props.PlainSearch
import Verif.Props.Processors
import Verif.Props.ProcessorsEqual
import Verif.Props.ProcessorsRaise
import Verif.Props.Project
import Verif.Props.PyList
import Verif.Props.Queries
import Verif.Props.Raising
import Verif.Props.RawMatches
import Verif.Props.Rebulk
import Verif.Props.RebulkDefault
import Verif.Props.RebulkSimple
import Verif.Props.Refused
import Verif.Props.Regexes
import Verif.Props.Registry
import Verif.Props.RegistryUse
import Verif.Props.Removal
import Verif.Props.Removals
import Verif.Props.RepeatChain
import Verif.Props.RepeatSearch
import Verif.Props.RepeatValid
import Verif.Props.RuleLog
import Verif.Props.Rules
import Verif.Props.RulesObjects
import Verif.Props.Sequence
import Verif.Props.Session
import Verif.Props.SessionTags
import Verif.Props.Settled
import Verif.Props.Threads
import Verif.Props.TypedSearch
import Verif.Props.Utils
import Verif.Props.WordChain
import Verif.Props.WordSearch
import Verif.Spec.Arguments
import Verif.Spec.Assign
import Verif.Spec.Builder
import Verif.Spec.BuilderDicts
import Verif.Spec.BuilderOptions
import Verif.Spec.Callable
import Verif.Spec.Chain
import Verif.Spec.ChainDrift
import Verif.Spec.ChainFound
import Verif.Spec.ChainLinks
import Verif.Spec.ChainOrder
import Verif.Spec.ChainScan
import Verif.Spec.ChainValid
import Verif.Spec.ConfiguredSearch
import Verif.Spec.Consequences
import Verif.Spec.Container
import Verif.Spec.Copies
import Verif.Spec.Debug
import Verif.Spec.Failing
import Verif.Spec.FailingExact
import Verif.Spec.FailingHistories
import Verif.Spec.FailingReads
import Verif.Spec.FailingRules
import Verif.Spec.GroupSearch
import Verif.Spec.Handles
import Verif.Spec.History
import Verif.Spec.Holes
import Verif.Spec.HolesExact
import Verif.Spec.IdentitySet
import Verif.Spec.Initiator
import Verif.Spec.Introspect
import Verif.Spec.Iteration
import Verif.Spec.KeyViews
import Verif.Spec.ListValues
import Verif.Spec.LiveAnswers
import Verif.Spec.Locality
import Verif.Spec.Origin
import Verif.Spec.PartSearch
import Verif.Spec.Pattern
import Verif.Spec.PatternRun
import Verif.Spec.PlainSearch
import Verif.Spec.Processors
import Verif.Spec.Project
import Verif.Spec.Raising
import Verif.Spec.Rebulk
import Verif.Spec.Regexes
import Verif.Spec.Registry
import Verif.Spec.Removal
import Verif.Spec.RepeatChain
import Verif.Spec.RepeatValid
import Verif.Spec.RuleLog
import Verif.Spec.Rules
import Verif.Spec.RulesObjects
import Verif.Spec.Runs
import Verif.Spec.Sequence
import Verif.Spec.Session
import Verif.Spec.Sort
import Verif.Spec.Threads
import Verif.Spec.Truth
import Verif.Spec.TypedSearch
import Verif.Spec.Utils
import Verif.Spec.WordChain
import Verif.Spec.WordSearch
import Verif.Tests.Chain
import Verif.Tests.Engine
import Verif.Tests.Introspect
import Verif.Tests.Key
import Verif.Tests.Match
import Verif.Tests.Model
import Verif.Tests.Pattern
import Verif.Tests.Processors
import Verif.Tests.Rebulk
import Verif.Tests.Utils
