import Verif.Common.BMap
import Verif.Common.BMapSum
import Verif.Common.Decimal
import Verif.Common.Fixed
import Verif.Common.HMap
import Verif.Common.SortBy
import Verif.Common.Text
import Verif.Crdt.Context
import Verif.Crdt.CounterLemmas
import Verif.Crdt.Counters
import Verif.Crdt.OrMapValues
import Verif.Crdt.OrSet
import Verif.Crdt.OrSetLemmas
import Verif.Crdt.RegisterLemmas
import Verif.Crdt.Registers
import Verif.Crdt.SeqOrder
import Verif.Crdt.SeqView
import Verif.Crdt.SeqWorld
import Verif.Crdt.Sequence
import Verif.Crdt.VClock
import Verif.Crdt.World
import Verif.Crdt.WorldInv
import Verif.Data.Cow
import Verif.Data.CowLemmas
import Verif.Data.CowStep
import Verif.Data.Dense
import Verif.Data.DenseLemmas
import Verif.Data.Div
import Verif.Data.DivLemmas
import Verif.Data.Index
import Verif.Data.Intern
import Verif.Data.OpenMap
import Verif.Data.OpenMapLemmas
import Verif.Data.UFLemmas
import Verif.Data.UnionFind
import Verif.Kernel.AlphaLemmas
import Verif.Kernel.Cc
import Verif.Kernel.CcComplete
import Verif.Kernel.CcLemmas
import Verif.Kernel.CcMerge
import Verif.Kernel.Db
import Verif.Kernel.DbGuard
import Verif.Kernel.DbGuardLemmas
import Verif.Kernel.DbInfer
import Verif.Kernel.DbLemmas
import Verif.Kernel.Guard
import Verif.Kernel.GuardLemmas
import Verif.Kernel.GuardRun
import Verif.Kernel.Infer
import Verif.Kernel.InferLemmas
import Verif.Kernel.Level
import Verif.Kernel.LevelLemmas
import Verif.Kernel.Linear
import Verif.Kernel.LinearLemmas
import Verif.Kernel.OmegaGoals
import Verif.Kernel.OmegaLemmas
import Verif.Kernel.ReifyLemmas
import Verif.Kernel.Ring
import Verif.Kernel.RingLemmas
import Verif.Kernel.Session
import Verif.Kernel.Simp
import Verif.Kernel.SimpLemmas
import Verif.Kernel.SubstLemmas
import Verif.Kernel.Syntax
import Verif.Kernel.Term
import Verif.Kernel.TermLemmas
import Verif.Kernel.TypesEqual
import Verif.Lang.CallSpec
import Verif.Lang.Checked
import Verif.Lang.ClosedForm
import Verif.Lang.ClosedFormDefer
import Verif.Lang.ClosedFormInit
import Verif.Lang.ClosedFormRec
import Verif.Lang.ClosedFormRun
import Verif.Lang.ClosedFormSound
import Verif.Lang.ClosedFormSpec
import Verif.Lang.ColourRun
import Verif.Lang.CopyProp
import Verif.Lang.CopyPropSound
import Verif.Lang.Ctfe
import Verif.Lang.CtfeSound
import Verif.Lang.Dce
import Verif.Lang.DceLemmas
import Verif.Lang.DceRun
import Verif.Lang.DceSim
import Verif.Lang.DceSpec
import Verif.Lang.EGraph
import Verif.Lang.EGraphRuleSound
import Verif.Lang.EGraphRules
import Verif.Lang.EGraphRun
import Verif.Lang.EGraphRunSound
import Verif.Lang.EGraphRunSpec
import Verif.Lang.EGraphSimplify
import Verif.Lang.EGraphSound
import Verif.Lang.EGraphSpec
import Verif.Lang.Effects
import Verif.Lang.Encoder
import Verif.Lang.EncoderSound
import Verif.Lang.EncoderSpec
import Verif.Lang.FixedFuns
import Verif.Lang.Fold
import Verif.Lang.FoldLemmas
import Verif.Lang.FoldSim
import Verif.Lang.FoldStep
import Verif.Lang.FuseBranch
import Verif.Lang.Gvn
import Verif.Lang.GvnEffects
import Verif.Lang.GvnHoist
import Verif.Lang.GvnSound
import Verif.Lang.GvnSpec
import Verif.Lang.Inline
import Verif.Lang.InlineSound
import Verif.Lang.Interp
import Verif.Lang.IntervalCareful
import Verif.Lang.IntervalRun
import Verif.Lang.IntervalSim
import Verif.Lang.IntervalSound
import Verif.Lang.IntervalSpec
import Verif.Lang.Intervals
import Verif.Lang.JitRun
import Verif.Lang.MaskLemmas
import Verif.Lang.Ownership
import Verif.Lang.OwnershipProof
import Verif.Lang.PopcountLeaf
import Verif.Lang.PopcountRun
import Verif.Lang.PropSim
import Verif.Lang.Propagate
import Verif.Lang.RefinePlain
import Verif.Lang.Scoping
import Verif.Lang.Sim
import Verif.Lang.Strength
import Verif.Lang.StrengthSound
import Verif.Lang.Symmetry
import Verif.Lang.SymmetryBits
import Verif.Lang.SymmetryRun
import Verif.Lang.Syntax
import Verif.Lsp.Document
import Verif.Lsp.LineIndex
import Verif.Lsp.LineIndexLemmas
import Verif.Lsp.SemanticTokens
import Verif.Lsp.Server
import Verif.Lsp.ServerCalm
import Verif.Lsp.ServerInv
import Verif.Net.Fec
import Verif.Net.FecFrame
import Verif.Net.FecLemmas
import Verif.Net.FecMatrix
import Verif.Net.Gf
import Verif.Net.GfField
import Verif.Net.Stream
import Verif.Net.StreamLemmas
import Verif.Net.Wire
import Verif.Net.WireLemmas
import Verif.Num.BigInt
import Verif.Num.BigIntText
import Verif.Num.Complex
import Verif.Num.Decimal
import Verif.Num.Dimension
import Verif.Num.Float
import Verif.Num.Limbs
import Verif.Num.Quantity
import Verif.Num.Rational
import Verif.Num.RationalText
import Verif.Num.Units
import Verif.Num.Uuid
import Verif.Num.UuidLemmas
import Verif.Num.UuidText
import Verif.Proof.CardLemmas
import Verif.Proof.Cardinality
import Verif.Proof.Cnf
import Verif.Proof.CnfLemmas
import Verif.Proof.Dimacs
import Verif.Proof.DiscLemmas
import Verif.Proof.DiscSpec
import Verif.Proof.DiscTree
import Verif.Proof.Lit
import Verif.Proof.MatchLemmas
import Verif.Proof.Pr
import Verif.Proof.PrLemmas
import Verif.Proof.Rup
import Verif.Proof.RupLemmas
import Verif.Proof.Unify
import Verif.Proof.UnifyExpr
import Verif.Proof.UnifyExprLemmas
import Verif.Proof.UnifyExprSpec
import Verif.Proof.UnifyLemmas
import Verif.Proof.UnifySpec
import Verif.Props.Alpha
import Verif.Props.BigInt
import Verif.Props.Calendar
import Verif.Props.Cardinality
import Verif.Props.Cdcl
import Verif.Props.Clocks
import Verif.Props.ClosedForm
import Verif.Props.Cnf
import Verif.Props.CnfKeys
import Verif.Props.Collections
import Verif.Props.CopyProp
import Verif.Props.CopyPropFrame
import Verif.Props.CopyPropLemmas
import Verif.Props.Counters
import Verif.Props.Cow
import Verif.Props.Ctfe
import Verif.Props.Db
import Verif.Props.Dce
import Verif.Props.Diagnostics
import Verif.Props.Dimacs
import Verif.Props.DiscTree
import Verif.Props.DocumentSync
import Verif.Props.EGraph
import Verif.Props.Encoder
import Verif.Props.Entails
import Verif.Props.Fec
import Verif.Props.Fold
import Verif.Props.FuseBranch
import Verif.Props.Gf2
import Verif.Props.Guard
import Verif.Props.Gvn
import Verif.Props.Horn
import Verif.Props.Infer
import Verif.Props.Inline
import Verif.Props.Intervals
import Verif.Props.JitRun
import Verif.Props.KernelCc
import Verif.Props.KernelLinear
import Verif.Props.KernelRing
import Verif.Props.KernelSimp
import Verif.Props.Level
import Verif.Props.LineIndex
import Verif.Props.Matching
import Verif.Props.NanBox
import Verif.Props.Numbers
import Verif.Props.OrSet
import Verif.Props.Ownership
import Verif.Props.PopcountLeaf
import Verif.Props.Propagate
import Verif.Props.Quantity
import Verif.Props.RegAlloc
import Verif.Props.Registers
import Verif.Props.Rup
import Verif.Props.SatCert
import Verif.Props.SatSolve
import Verif.Props.SchedChannels
import Verif.Props.SchedRuns
import Verif.Props.Scheduling
import Verif.Props.SecondGuard
import Verif.Props.SemanticTokens
import Verif.Props.Sequence
import Verif.Props.Session
import Verif.Props.Steal
import Verif.Props.Storage
import Verif.Props.Strength
import Verif.Props.Structures
import Verif.Props.Subst
import Verif.Props.SubstMeaning
import Verif.Props.Symmetry
import Verif.Props.TimeText
import Verif.Props.TwoSat
import Verif.Props.Unify
import Verif.Props.UnifyExpr
import Verif.Props.UnionFind
import Verif.Props.Uuid
import Verif.Props.Wire
import Verif.Props.Zones
import Verif.Sat.Cdcl
import Verif.Sat.CdclAnalyze
import Verif.Sat.CdclBack
import Verif.Sat.CdclInv
import Verif.Sat.CdclProp
import Verif.Sat.CdclReduce
import Verif.Sat.CdclRun
import Verif.Sat.CdclTerm
import Verif.Sat.Entails
import Verif.Sat.Inproc
import Verif.Sat.InprocKeep
import Verif.Sat.InprocOk
import Verif.Sat.SolveOk
import Verif.Sat.World
import Verif.Sched.Demo
import Verif.Sched.Ext
import Verif.Sched.Facts
import Verif.Sched.Fair
import Verif.Sched.History
import Verif.Sched.Inv
import Verif.Sched.Lemmas
import Verif.Sched.Lemmas2
import Verif.Sched.Model
import Verif.Sched.NoPanic
import Verif.Sched.Ops
import Verif.Sched.Ops2
import Verif.Sched.Ops3
import Verif.Sched.Ops4
import Verif.Sched.Ops5
import Verif.Sched.Reach
import Verif.Sched.Replay
import Verif.Sched.Sends
import Verif.Sched.Spec
import Verif.Sched.Steal
import Verif.Sched.StealProof
import Verif.Sched.StealRound
import Verif.Sched.StealSim
import Verif.Sched.Timers
import Verif.Solve.Gf2
import Verif.Solve.Gf2Lemmas
import Verif.Solve.Gf2Space
import Verif.Solve.Horn
import Verif.Solve.HornLemmas
import Verif.Solve.Interval
import Verif.Solve.IntervalLemmas
import Verif.Solve.TwoLemmas
import Verif.Solve.TwoSat
import Verif.Solve.UnionFind
import Verif.Solve.UnionFindLemmas
import Verif.Store.Counter
import Verif.Store.Crc
import Verif.Store.Dist
import Verif.Store.Inv
import Verif.Store.Journal
import Verif.Store.Lemmas
import Verif.Store.Node
import Verif.Store.Spec
import Verif.Time.Calendar
import Verif.Time.CalendarLemmas
import Verif.Time.CalendarMore
import Verif.Time.Clock
import Verif.Time.DurText
import Verif.Time.Instant
import Verif.Time.InstantLemmas
import Verif.Time.RfcLemmas
import Verif.Time.RfcText
import Verif.Time.SpanLemmas
import Verif.Time.Spec
import Verif.Time.ZoneLemmas
import Verif.Vm.NanBox
import Verif.Vm.NanInv
import Verif.Vm.NanLemmas
import Verif.Vm.NanSpec
import Verif.Vm.NanSteps
