import Verif.Common
import Verif.Budget.Model
import Verif.Budget.Props
import Verif.Budget.Arith
import Verif.Session.Model
import Verif.Session.Tree
import Verif.Session.Steps
import Verif.Session.Spend
import Verif.Session.PropsBudget
import Verif.Session.PropsRequests
import Verif.Session.PropsTree
import Verif.Session.PropsViews
import Verif.Session.Examples
import Verif.Session.Refusal
import Verif.Session.ExamplesRefusal
import Verif.Binning.Model
import Verif.Binning.Props
import Verif.Table.Value
import Verif.Constraint.Model
import Verif.Constraint.Props
import Verif.Constraint.Truncate
import Verif.Constraint.Examples
import Verif.Schema.Dict
import Verif.Schema.Model
import Verif.Schema.Props
import Verif.Expr.Model
import Verif.Expr.Conform
import Verif.Expr.Agree
import Verif.Expr.Types
import Verif.Expr.PropsSchema
import Verif.Expr.ExamplesSchema
import Verif.Expr.Ids
import Verif.Expr.PropsIds
import Verif.Expr.PropsConstraint
import Verif.Expr.ExamplesIds
import Verif.Query.Model
import Verif.Query.Steps
import Verif.Query.PropsBudget
import Verif.Query.Clean
import Verif.Query.PropsNoise
import Verif.Query.PropsSpecial
import Verif.Query.PropsAnswer
import Verif.Query.Examples
import Verif.Expr.PropsFrame
import Verif.Expr.PropsGrouping
import Verif.Query.PropsGrouping
import Verif.Query.PropsResult
import Verif.Query.ExamplesResult
import Verif.Misc.Flags
import Verif.Misc.Collection
import Verif.Misc.NoiseInfo
import Verif.Relation.Ref
import Verif.Relation.Model
import Verif.Relation.Cover
import Verif.Relation.Generate
import Verif.Relation.Visit
import Verif.Relation.PropsCover
import Verif.Relation.Builder
import Verif.Relation.Distance
import Verif.KeySet.Model
import Verif.KeySet.Spec
import Verif.KeySet.Traverse
import Verif.KeySet.Rules
import Verif.KeySet.Class
import Verif.KeySet.Frames
import Verif.KeySet.PropsRewrite
import Verif.KeySet.Schemas
import Verif.KeySet.PropsOps
import Verif.KeySet.Nonzero
import Verif.KeySet.PropsSize
import Verif.KeySet.Expression
import Verif.KeySet.PropsEq
import Verif.KeySet.PropsDecompose
import Verif.Builder.Expr
import Verif.Builder.PropsEq
import Verif.Builder.PropsEqFails
import Verif.Builder.PropsHash
import Verif.Builder.Heap
import Verif.Builder.PropsHeap
import Verif.Builder.PropsMeaning
import Verif.Constraint.Hash
import Verif.Stability.Dist
import Verif.Stability.Truncate
import Verif.Stability.Props
import Verif.Stability.PropsRows
import Verif.Stability.Ids
import Verif.Stability.PropsQuery
import Verif.Stability.Examples
import Verif.Composition.Close
import Verif.Composition.Model
import Verif.Composition.Props
import Verif.Composition.Examples
import Verif.Relation.Domain
import Verif.Whole.Dist
import Verif.Whole.Typed
import Verif.Whole.Model
import Verif.Whole.Stable
import Verif.Whole.Views
import Verif.Whole.Plan
import Verif.Whole.Measure
import Verif.Whole.Partition
import Verif.Whole.Start
import Verif.Whole.Props
import Verif.Whole.Noise
import Verif.Whole.Examples
import Verif.Meaning.Spec
import Verif.Meaning.Rows
import Verif.Meaning.Props
import Verif.Meaning.Examples
import Verif.Whole.Answers
import Verif.Whole.ExamplesAnswers
import Verif.Whole.Reports
import Verif.Whole.ExamplesReports
import Verif.Whole.Exact
import Verif.Whole.Budgets
import Verif.Whole.ExamplesExact
import Verif.Whole.Grouped
import Verif.Whole.Groups
import Verif.Whole.ExamplesGrouped
import Verif.Whole.Total
import Verif.Whole.ExamplesTotal
import Verif.Whole.Splits
import Verif.Whole.ExamplesSplits
import Verif.Expr.Total
import Verif.Query.Total
import Verif.Query.ExamplesTotal
import Verif.Whole.Histogram
import Verif.Whole.ExamplesHistogram
import Verif.Nested.Model
import Verif.Nested.Tree
import Verif.Nested.Steps
import Verif.Nested.Compile
import Verif.Nested.Mid
import Verif.Nested.Session
import Verif.Nested.Views
import Verif.Nested.Start
import Verif.Nested.History
import Verif.Nested.Examples
import Verif.Whole.Charged
import Verif.Whole.Blind
import Verif.KeySet.Plans
import Verif.Whole.FromFrame
import Verif.Whole.Methods
import Verif.Whole.ExamplesMethods
import Verif.Whole.Chain
import Verif.Whole.PropsChain
import Verif.Whole.ColumnsChain
import Verif.Whole.AnswersChain
import Verif.Whole.ExamplesChain
import Verif.Whole.Finish
import Verif.Whole.ExamplesFinish
import Verif.Builder.PropsFrames
import Verif.Program.Model
import Verif.Program.Steps
import Verif.Program.Props
import Verif.Program.Sim
import Verif.Program.Main
import Verif.Program.Examples
import Verif.Budget.PropsInfinite
import Verif.Bins.Model
import Verif.Bins.Strings
import Verif.Bins.Props
import Verif.Bins.Main
import Verif.Bins.Names
import Verif.Bins.Histogram
import Verif.Bins.Examples
import Verif.Whole.SessionFits
import Verif.Whole.ExamplesFits
import Verif.Whole.Describe
import Verif.Whole.PropsDescribe
import Verif.Whole.ExamplesDescribe
import Verif.Composition.Derived
import Verif.Whole.Group
import Verif.Whole.ExamplesGroup
import Verif.Whole.Alike
import Verif.Whole.ExamplesAlike
import Verif.Composition.Several
import Verif.Whole.Several
import Verif.Whole.ExamplesSeveral
import Verif.Whole.Unread
import Verif.Whole.ExamplesUnread
import Verif.Composition.Adaptive
import Verif.Whole.Opened
import Verif.Whole.ExamplesOpened
import Verif.Whole.Shuffled
import Verif.Whole.ExamplesShuffled
import Verif.Query.OtherKeys
import Verif.Session.NoiseInfo
import Verif.Whole.OtherKeys
import Verif.Whole.Told
import Verif.Whole.ExamplesOtherKeys
import Verif.Whole.Installation
import Verif.Whole.ExamplesInstallation
import Verif.Query.OtherBudget
import Verif.Session.OtherBudget
import Verif.Whole.OtherBudget
import Verif.Whole.ExamplesOtherBudget
import Verif.Expr.Alike
import Verif.Expr.Inline
import Verif.Query.Inline
import Verif.Whole.Inline
import Verif.Whole.ExamplesInline
import Verif.Expr.Named
import Verif.Query.Named
import Verif.Whole.Named
import Verif.Whole.ExamplesNamed
import Verif.Whole.Commute
import Verif.Whole.ExamplesCommute
import Verif.Whole.Traceless
import Verif.Whole.ExamplesTraceless
import Verif.Whole.Renamed
import Verif.Whole.ExamplesRenamed
import Verif.Whole.Others
import Verif.Whole.ExamplesOthers
import Verif.Whole.AnyOrder
import Verif.Whole.ExamplesAnyOrder
