import Verif.Model.Ast
import Verif.Model.Basic
import Verif.Model.Codegen
import Verif.Model.Display
import Verif.Model.Emit
import Verif.Model.EmitRuntime
import Verif.Model.First
import Verif.Model.FollowSets
import Verif.Model.FreeActions
import Verif.Model.Grammar
import Verif.Model.Idents
import Verif.Model.Interactive
import Verif.Model.LR0
import Verif.Model.LR1
import Verif.Model.Lower
import Verif.Model.Macro
import Verif.Model.Messages
import Verif.Model.PanickingNext
import Verif.Model.Pattern
import Verif.Model.Runtime
import Verif.Model.Rust
import Verif.Model.Simulate
import Verif.Model.Syntax
import Verif.Model.Table
import Verif.Model.Text
import Verif.Model.TextPrint
import Verif.Model.Variables
import Verif.Spec.Actions
import Verif.Spec.Alpha
import Verif.Spec.Assoc
import Verif.Spec.Calculator
import Verif.Spec.Classes
import Verif.Spec.Compiled
import Verif.Spec.Contract
import Verif.Spec.Derivation
import Verif.Spec.Display
import Verif.Spec.During
import Verif.Spec.EmitLifetimes
import Verif.Spec.EmitNames
import Verif.Spec.EmitRun
import Verif.Spec.EmitTyping
import Verif.Spec.Emitted
import Verif.Spec.Extend
import Verif.Spec.First
import Verif.Spec.Follow
import Verif.Spec.FollowSets
import Verif.Spec.FreeActions
import Verif.Spec.Greedy
import Verif.Spec.Idents
import Verif.Spec.Interactive
import Verif.Spec.Knuth
import Verif.Spec.LR
import Verif.Spec.LR0
import Verif.Spec.Latency
import Verif.Spec.Layered
import Verif.Spec.LeftRecursion
import Verif.Spec.Loops
import Verif.Spec.Messages
import Verif.Spec.PanickingNext
import Verif.Spec.Param
import Verif.Spec.Parts
import Verif.Spec.Precedence
import Verif.Spec.Print
import Verif.Spec.Pub
import Verif.Spec.Rearrange
import Verif.Spec.Refactor
import Verif.Spec.Regular
import Verif.Spec.Reject
import Verif.Spec.Rename
import Verif.Spec.Reports
import Verif.Spec.Semantics
import Verif.Spec.Simulate
import Verif.Spec.Space
import Verif.Spec.Syntax
import Verif.Spec.Text
import Verif.Spec.Tokens
import Verif.Spec.User
import Verif.Spec.UserLR
import Verif.Spec.Valid
import Verif.Spec.Variables
import Verif.Proofs.Abstract
import Verif.Proofs.Alpha
import Verif.Proofs.AlphaGen
import Verif.Proofs.AlphaRun
import Verif.Proofs.Automaton
import Verif.Proofs.Check
import Verif.Proofs.ClassCheck
import Verif.Proofs.Classes
import Verif.Proofs.Closure
import Verif.Proofs.Codegen
import Verif.Proofs.Compiled
import Verif.Proofs.Complete
import Verif.Proofs.Conflict
import Verif.Proofs.Corr
import Verif.Proofs.CorrAccept
import Verif.Proofs.CorrRun
import Verif.Proofs.CorrStep
import Verif.Proofs.Derivation
import Verif.Proofs.Display
import Verif.Proofs.DisplayTotal
import Verif.Proofs.Emit
import Verif.Proofs.EmitCompiled
import Verif.Proofs.EmitNames
import Verif.Proofs.EmitRun
import Verif.Proofs.EmitTyping
import Verif.Proofs.Entry
import Verif.Proofs.First
import Verif.Proofs.FirstComplete
import Verif.Proofs.Follow
import Verif.Proofs.FollowSets
import Verif.Proofs.FreeActions
import Verif.Proofs.Functor
import Verif.Proofs.Greedy
import Verif.Proofs.GreedyRun
import Verif.Proofs.Idents
import Verif.Proofs.Immediate
import Verif.Proofs.Interactive
import Verif.Proofs.InteractiveEval
import Verif.Proofs.ItemsAt
import Verif.Proofs.Justified
import Verif.Proofs.Knuth
import Verif.Proofs.LR0
import Verif.Proofs.LR0Valid
import Verif.Proofs.Latency
import Verif.Proofs.Layered
import Verif.Proofs.LeftRec
import Verif.Proofs.LeftRecDerive
import Verif.Proofs.LeftRecStop
import Verif.Proofs.Linear
import Verif.Proofs.Lower
import Verif.Proofs.LowerSpec
import Verif.Proofs.Machine
import Verif.Proofs.Macro
import Verif.Proofs.Names
import Verif.Proofs.Observe
import Verif.Proofs.Order
import Verif.Proofs.OrderFirst
import Verif.Proofs.PanickingNext
import Verif.Proofs.Param
import Verif.Proofs.Parse
import Verif.Proofs.PatternTyping
import Verif.Proofs.Print
import Verif.Proofs.PubFirst
import Verif.Proofs.PubPass
import Verif.Proofs.PubRun
import Verif.Proofs.Rearrange
import Verif.Proofs.Reject
import Verif.Proofs.Rename
import Verif.Proofs.Run
import Verif.Proofs.SLR
import Verif.Proofs.SLROrder
import Verif.Proofs.SLRTable
import Verif.Proofs.Simulate
import Verif.Proofs.Size
import Verif.Proofs.Space
import Verif.Proofs.Stops
import Verif.Proofs.Strip
import Verif.Proofs.Syntax
import Verif.Proofs.SyntaxItems
import Verif.Proofs.SyntaxPanics
import Verif.Proofs.Table
import Verif.Proofs.Tables
import Verif.Proofs.Terminate
import Verif.Proofs.Text
import Verif.Proofs.TextFn
import Verif.Proofs.TextGeneric
import Verif.Proofs.TextLoop
import Verif.Proofs.Tokens
import Verif.Proofs.Trace
import Verif.Proofs.Transfer
import Verif.Proofs.UserLR
import Verif.Proofs.Util
import Verif.Proofs.Valid
import Verif.Proofs.Variables
import Verif.Proofs.Variants
import Verif.Proofs.Wants
import Verif.Props.Actions
import Verif.Props.Alpha
import Verif.Props.Arrive
import Verif.Props.Assoc
import Verif.Props.Calculator
import Verif.Props.Classes
import Verif.Props.Codegen
import Verif.Props.Complete
import Verif.Props.Conflicts
import Verif.Props.Contract
import Verif.Props.ContractCheck
import Verif.Props.Counterexamples
import Verif.Props.Display
import Verif.Props.During
import Verif.Props.Emit
import Verif.Props.Entries
import Verif.Props.Errors
import Verif.Props.Examples
import Verif.Props.Extend
import Verif.Props.Follow
import Verif.Props.FollowSets
import Verif.Props.FreeActions
import Verif.Props.Generator
import Verif.Props.Greedy
import Verif.Props.Harmless
import Verif.Props.Idents
import Verif.Props.Immediate
import Verif.Props.Interactive
import Verif.Props.Knuth
import Verif.Props.LR0
import Verif.Props.Latency
import Verif.Props.Layered
import Verif.Props.LeftRecursion
import Verif.Props.Lifetimes
import Verif.Props.Linear
import Verif.Props.Lower
import Verif.Props.Markers
import Verif.Props.Messages
import Verif.Props.Order
import Verif.Props.PanickingNext
import Verif.Props.Param
import Verif.Props.Parts
import Verif.Props.Precedence
import Verif.Props.Pub
import Verif.Props.Rearrange
import Verif.Props.Refactor
import Verif.Props.Rename
import Verif.Props.Reports
import Verif.Props.Run
import Verif.Props.SLR
import Verif.Props.SLRExamples
import Verif.Props.SLRTerminates
import Verif.Props.Simulate
import Verif.Props.Space
import Verif.Props.SpaceUser
import Verif.Props.Syntax
import Verif.Props.Terminate
import Verif.Props.TerminateLR1
import Verif.Props.Text
import Verif.Props.Tokens
import Verif.Props.Useful
import Verif.Props.UserGrammar
import Verif.Props.UserLevel
import Verif.Props.Variables
import Verif.Conformance.Contracts
import Verif.Conformance.Source
import Verif.Conformance.Tests
import Verif.Conformance.Unit
import Verif.Conformance.UnitSLR
