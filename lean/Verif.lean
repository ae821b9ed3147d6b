import Verif.Model.Basic
import Verif.Model.Var
import Verif.Model.Binary
import Verif.Spec
import Verif.Proofs.Basic
import Verif.Proofs.Strip
import Verif.Proofs.Round
import Verif.Proofs.AddSub
import Verif.Proofs.Mul
import Verif.Proofs.Div
import Verif.Proofs.DivLoop
import Verif.Proofs.Canon
import Verif.Proofs.Small
import Verif.Proofs.Binary
import Verif.Model.Num
import Verif.SpecApi
import Verif.Proofs.Api
import Verif.Proofs.Api2
import Verif.Proofs.Exists
import Verif.Props.Arith
import Verif.Props.Laws
import Verif.Props.Format
import Verif.Model.Parse
import Verif.Model.Text
import Verif.SpecText
import Verif.Proofs.ParseScan
import Verif.Proofs.Parse
import Verif.Proofs.Text
import Verif.Props.Text
import Verif.Model.Typmod
import Verif.Proofs.Typmod
import Verif.Props.Typmod
import Verif.Model.Convert
import Verif.Proofs.Convert
import Verif.SpecFloat
import Verif.Model.Float
import Verif.Proofs.Float
import Verif.Props.Convert
import Verif.Model.Data
import Verif.SpecBuf
import Verif.Proofs.Data
import Verif.Proofs.Data2
import Verif.Props.Buffer
import Verif.Model.Factorial
import Verif.Proofs.Factorial
import Verif.Props.Factorial
import Verif.SpecRun
import Verif.Props.History
import Verif.Model.F64
import Verif.Model.Fast
import Verif.Proofs.F64
import Verif.Proofs.Fast
import Verif.Proofs.RoundErr
import Verif.Props.Fast
import Verif.Model.Sqrt
import Verif.Proofs.Sqrt
import Verif.SpecSqrt
import Verif.Props.Sqrt
import Verif.Model.Power
import Verif.SpecLibm
import Verif.SpecPow
import Verif.Proofs.Power
import Verif.Props.Power
import Verif.Props.Log
import Verif.SpecSci
import Verif.Proofs.SciTable
import Verif.Proofs.Sci
import Verif.Props.Sci
import Verif.Proofs.LnReduce
import Verif.Proofs.Work
import Verif.Proofs.LnSeries
import Verif.Proofs.Ln
import Verif.Proofs.LnWeight
import Verif.Proofs.LogAcc
import Verif.Props.Ln
import Verif.Props.LogAcc
import Verif.Proofs.Exp
import Verif.Proofs.ExpSeries
import Verif.Proofs.ExpSquare
import Verif.Proofs.ExpCommon
import Verif.Props.Exp
import Verif.Proofs.PowReal
import Verif.Props.PowReal
import Verif.Props.PowTiny
import Verif.Proofs.SqrtTotal
import Verif.Props.SqrtTotal
import Verif.Props.DebugSafe
import Verif.Props.LogSafe
import Verif.Props.PowSafe
import Verif.Props.RealLaws
import Verif.Proofs.LogCases
import Verif.Props.NoPanic
import Verif.Proofs.PowDec
import Verif.Proofs.PowEst
import Verif.Proofs.PowInt
import Verif.Props.PowInt
import Verif.Model.Ieee
import Verif.SpecIeee
import Verif.Model.ToFloat
import Verif.Proofs.Ieee
import Verif.Proofs.ToFloat
import Verif.Proofs.ToFloat32
import Verif.Proofs.Strtod
import Verif.Proofs.Signed
import Verif.Props.Float
import Verif.SpecStored
import Verif.Proofs.Stored
import Verif.Props.Stored
import Verif.Model.Heap
import Verif.SpecHeap
import Verif.SpecFormat
import Verif.SpecClient
import Verif.Proofs.Heap
import Verif.Proofs.HeapOps
import Verif.Props.Heap
import Verif.Props.Client
import Verif.Props.Hang
import Verif.Props.DebugPanic
import Verif.Model.Refs
import Verif.Props.Refs
import Verif.Props.Interchange
import Verif.Props.DivLaws
import Verif.Props.Faithful
import Verif.Proofs.StoredArith
import Verif.Props.StoredArith
import Verif.Props.StoredMore
import Verif.Props.Size
import Verif.Proofs.StoredText
import Verif.Props.StoredText
import Verif.Model.Client
import Verif.SpecThreads
import Verif.Model.Threads
import Verif.Proofs.Threads
import Verif.Proofs.ThreadFrame
import Verif.Props.Threads
import Verif.Model.Messages
import Verif.Props.Messages
import Verif.SpecReal
import Verif.Model.RealClient
import Verif.Props.RealClient
import Verif.SpecBuild
import Verif.Proofs.Agree
import Verif.Proofs.Agree2
import Verif.Proofs.Agree3
import Verif.Proofs.AgreeClient
import Verif.Props.Agree
import Verif.SpecAggregate
import Verif.Props.Aggregate
import Verif.SpecRealThreads
import Verif.Model.RealThreads
import Verif.Props.RealThreads
import Verif.SpecUntrusted
import Verif.Model.Untrusted
import Verif.Props.Untrusted
import Verif.Proofs.UntrustedCmp
import Verif.Props.UntrustedCmp
import Verif.Proofs.UntrustedSign
import Verif.Props.UntrustedSign
import Verif.Proofs.UntrustedText
import Verif.Props.UntrustedText
import Verif.Model.Borrowed
import Verif.Proofs.Borrowed
import Verif.Props.Borrowed
import Verif.Props.BorrowedArith
import Verif.Model.UntrustedAdd
import Verif.Proofs.UntrustedAdd
import Verif.Proofs.UntrustedSum
import Verif.Props.UntrustedAdd
import Verif.Props.UntrustedInt
import Verif.Props.UntrustedRound
import Verif.Props.UntrustedCeil
import Verif.Props.UntrustedTypmod
import Verif.Props.UntrustedMul
import Verif.Props.UntrustedDiv
import Verif.Props.UntrustedRem
import Verif.Props.UntrustedSqrt
import Verif.Props.UntrustedFloat
import Verif.Props.UntrustedLn
import Verif.Props.UntrustedLog
