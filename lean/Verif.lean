import Verif.Props.C10
import Verif.Props.C12
import Verif.Props.C11
import Verif.Props.C01
import Verif.Props.C03
import Verif.Props.C04
import Verif.Props.C05
import Verif.Props.C06
import Verif.Props.C09
import Verif.Props.C13
import Verif.Props.C14
import Verif.Props.C07
import Verif.Props.C08
import Verif.Props.C51
import Verif.Props.C52
import Verif.Props.C17
import Verif.Props.C20
import Verif.Props.C21
import Verif.Props.C19
import Verif.Props.C25
import Verif.Props.C26
import Verif.Props.C27
import Verif.Props.C28
import Verif.Props.C29
import Verif.Props.C54
import Verif.Props.C15
import Verif.Props.C16
import Verif.Props.C22
import Verif.Props.C23
import Verif.Props.C30
import Verif.Props.C50
import Verif.Mem.Pool
import Verif.Props.C47
import Verif.Compiler.Regs
import Verif.Compiler.RegsLemmas
import Verif.Compiler.RegsRange
import Verif.Props.C35
import Verif.Utils.Compare
import Verif.Utils.CompareLemmas
import Verif.Props.C46
import Verif.Base.Sort
import Verif.Base.SortLemmas
import Verif.Props.C38
import Verif.Base.Pack
import Verif.Base.PackFormat
import Verif.Base.PackSpec
import Verif.Base.PackLemmas
import Verif.Base.UnpackLemmas
import Verif.Base.PackAccept
import Verif.Props.C39
import Verif.Props.C40
import Verif.Props.C58
import Verif.Ctl.Lang
import Verif.Ctl.Machine
import Verif.Ctl.Gen
import Verif.Ctl.Cond
import Verif.Ctl.Safe
import Verif.Ctl.Grow
import Verif.Ctl.Count
import Verif.Ctl.Wf
import Verif.Ctl.JumpArray
import Verif.Props.C56
import Verif.Props.C59
import Verif.Props.C61
import Verif.Ctl.Post
import Verif.Ctl.Sim
import Verif.Ctl.Mono
import Verif.Props.C60
import Verif.Ctl.Optim
import Verif.Ctl.OptimLemmas
import Verif.Ctl.OptimMore
import Verif.Props.C36
import Verif.Ctl.Range
import Verif.Props.C37
import Verif.Call.Bind
import Verif.Call.BindLemmas
import Verif.Call.InitLemmas
import Verif.Props.C31
import Verif.Props.C32
import Verif.Call.Gener
import Verif.Call.GenerLemmas
import Verif.Props.C33
import Verif.Props.C34
import Verif.Call.Stack
import Verif.Call.StackLemmas
import Verif.Call.StackOps
import Verif.Props.C48
import Verif.Props.C62
import Verif.Misc.Double
import Verif.Lib.Datetime
import Verif.Lib.Shuffle
import Verif.Lib.Iter
import Verif.Props.C41
import Verif.Props.C42
import Verif.Props.C43
import Verif.Lib.Text
import Verif.Props.C44
import Verif.Props.C64
import Verif.Misc.ParseDouble
import Verif.Misc.ParseDoubleLemmas
import Verif.Misc.FloatSpec
import Verif.Misc.ScanDouble
import Verif.Misc.FloatError
import Verif.Misc.FloatRound
import Verif.Misc.FloatFaithful
import Verif.Props.C49
import Verif.Misc.PrintFloat
import Verif.Misc.PrintFloatLemmas
import Verif.Misc.FloatStable
import Verif.Props.C66
import Verif.Props.C67
import Verif.Lib.Json
import Verif.Lib.JsonLex
import Verif.Lib.JsonSpec
import Verif.Lib.JsonTok
import Verif.Lib.JsonParse
import Verif.Props.C45
import Verif.Conc.Array
import Verif.Conc.ArrayInv
import Verif.Conc.ArrayMem
import Verif.Conc.ArraySpec
import Verif.Conc.ArrayStep
import Verif.Conc.ArrayCopy
import Verif.Conc.ArrayGrow
import Verif.Props.C18
import Verif.Props.C68
import Verif.Conc.Object
import Verif.Conc.ObjectSpec
import Verif.Conc.ObjectInv
import Verif.Conc.ObjectFacts
import Verif.Conc.ObjectStep
import Verif.Conc.ObjectWrite
import Verif.Conc.ObjectCopy
import Verif.Conc.ObjectGood
import Verif.Props.C24
import Verif.Re.Class
import Verif.Re.ClassFacts
import Verif.Re.Parse
import Verif.Re.Match
import Verif.Re.Spec
import Verif.Re.SpecFacts
import Verif.Re.Code
import Verif.Re.MatchFacts
import Verif.Re.MatchRun
import Verif.Re.MatchFind
import Verif.Re.ParseFacts
import Verif.Re.ParseRun
import Verif.Re.ParseAll
import Verif.Re.ParseLimit
import Verif.Props.C70
import Verif.Props.C69
import Verif.Gc.Heap
import Verif.Gc.Mark
import Verif.Gc.Evac
import Verif.Gc.Spec
import Verif.Gc.MarkProof
import Verif.Gc.Live
import Verif.Gc.MarkTerm
import Verif.Gc.AllocProof
import Verif.Gc.OpaqueProof
import Verif.Gc.EvacProof
import Verif.Gc.EvacSteps
import Verif.Gc.EvacLoop
import Verif.Gc.UpdProof
import Verif.Gc.PassProof
import Verif.Gc.Carry
import Verif.Gc.CollectProof
import Verif.Props.C71
import Verif.Props.C72
import Verif.Props.C73
import Verif.Props.C74
import Verif.Expr.Tok
import Verif.Expr.Parse
import Verif.Expr.Spec
import Verif.Expr.Lemmas
import Verif.Expr.Sound
import Verif.Expr.First
import Verif.Expr.Comp
import Verif.Expr.CompMember
import Verif.Expr.CompOps
import Verif.Expr.Transfer
import Verif.Props.C75
import Verif.Clos.Ast
import Verif.Clos.Pass
import Verif.Clos.Sem
import Verif.Clos.Sim
import Verif.Clos.Inv
import Verif.Clos.Link
import Verif.Clos.Ends
import Verif.Clos.Mean
import Verif.Props.C76
import Verif.Names.Ast
import Verif.Names.Model
import Verif.Names.Spec
import Verif.Names.Proof
import Verif.Props.C77
import Verif.Props.C78
import Verif.Stop.Model
import Verif.Stop.Proof
import Verif.Stop.Steps
import Verif.Stop.Collector
import Verif.Stop.Ends
import Verif.Props.C79
import Verif.Thr.Model
import Verif.Thr.Spec
import Verif.Thr.Proof
import Verif.Props.C80
import Verif.Props.C81
import Verif.Props.C82
import Verif.Join.Model
import Verif.Join.Spec
import Verif.Join.Inv
import Verif.Join.Frame
import Verif.Join.Steps
import Verif.Join.Steps2
import Verif.Join.Steps3
import Verif.Join.Steps4
import Verif.Join.Steps5
import Verif.Join.Proof
import Verif.Join.Thms
import Verif.Join.Witness
import Verif.Props.C83
import Verif.Obj.Walk
import Verif.Obj.Ext
import Verif.Obj.WalkProof
import Verif.Obj.WalkDeep
import Verif.Obj.Firm
import Verif.Props.C84
import Verif.Line.Model
import Verif.Line.Lemmas
import Verif.Line.Spec
import Verif.Line.Proof
import Verif.Line.Steps
import Verif.Props.C85
import Verif.Line.Screen
import Verif.Props.C86
import Verif.Vect.Model
import Verif.Vect.Proof
import Verif.Props.C87
import Verif.Utils.GetInt
import Verif.Props.C88
import Verif.Str.Justify
import Verif.Props.C89
import Verif.Arr.InsertIter
import Verif.Props.C90
import Verif.Arr.CasMethod
import Verif.Props.C91
