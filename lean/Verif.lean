import Verif.Model.Accumulate
import Verif.Model.Add
import Verif.Model.AddOps
import Verif.Model.AddOpsTime
import Verif.Model.Address
import Verif.Model.Arch
import Verif.Model.BitSetTime
import Verif.Model.Bits
import Verif.Model.BitsTime
import Verif.Model.Buffer
import Verif.Model.Bytes
import Verif.Model.Checked
import Verif.Model.Cmp
import Verif.Model.Consts
import Verif.Model.Convert
import Verif.Model.ConvertTime
import Verif.Model.DebugHex
import Verif.Model.Div
import Verif.Model.DivOps
import Verif.Model.DivOpsTime
import Verif.Model.DivTime
import Verif.Model.DivWord
import Verif.Model.EuclidTime
import Verif.Model.Expr
import Verif.Model.Factorial
import Verif.Model.FastDivide
import Verif.Model.Float
import Verif.Model.Fmt
import Verif.Model.FmtSink
import Verif.Model.FmtTime
import Verif.Model.Gcd
import Verif.Model.GcdTime
import Verif.Model.History
import Verif.Model.Interact
import Verif.Model.Macros
import Verif.Model.Memory
import Verif.Model.ModHistory
import Verif.Model.ModUnwind
import Verif.Model.Modular
import Verif.Model.ModularFmt
import Verif.Model.ModularTime
import Verif.Model.Mul
import Verif.Model.MulOps
import Verif.Model.MulOpsTime
import Verif.Model.MulTime
import Verif.Model.Ntt
import Verif.Model.NttTool
import Verif.Model.NumTraits
import Verif.Model.Parse
import Verif.Model.ParseTime
import Verif.Model.Pow
import Verif.Model.PowTime
import Verif.Model.Prim
import Verif.Model.PrimOps
import Verif.Model.Radix
import Verif.Model.Rand
import Verif.Model.RandTime
import Verif.Model.Serde
import Verif.Model.SerdeErr
import Verif.Model.SerdeTime
import Verif.Model.Shift
import Verif.Model.ShiftOps
import Verif.Model.ShiftOpsTime
import Verif.Model.Timed
import Verif.Model.UBig
import Verif.Model.Unwind
import Verif.Proofs.Accumulate
import Verif.Proofs.AccumulateOps
import Verif.Proofs.Add
import Verif.Proofs.AddOps
import Verif.Proofs.AddOpsTime
import Verif.Proofs.Address
import Verif.Proofs.Agreement
import Verif.Proofs.Basic
import Verif.Proofs.BitCount
import Verif.Proofs.BitSetTime
import Verif.Proofs.Bits
import Verif.Proofs.Buffer
import Verif.Proofs.Bytes
import Verif.Proofs.Cfg
import Verif.Proofs.Checked
import Verif.Proofs.Convert
import Verif.Proofs.ConvertCost
import Verif.Proofs.ConvertTime
import Verif.Proofs.Costs
import Verif.Proofs.Counted
import Verif.Proofs.CountedDiv
import Verif.Proofs.CountedMore
import Verif.Proofs.CountedText
import Verif.Proofs.DebugHexExact
import Verif.Proofs.Depth
import Verif.Proofs.DigitWriter
import Verif.Proofs.Div
import Verif.Proofs.DivCost
import Verif.Proofs.DivOps
import Verif.Proofs.DivOpsTime
import Verif.Proofs.DivPower
import Verif.Proofs.DivSimple
import Verif.Proofs.DivTime
import Verif.Proofs.DivWord
import Verif.Proofs.EuclidTime
import Verif.Proofs.Expr
import Verif.Proofs.ExtGcd
import Verif.Proofs.ExtGcdCost
import Verif.Proofs.FastDivide
import Verif.Proofs.Float
import Verif.Proofs.FloatOrder
import Verif.Proofs.FmtCost
import Verif.Proofs.FmtDigits
import Verif.Proofs.FmtEntry
import Verif.Proofs.FmtLarge
import Verif.Proofs.FmtLargeCost
import Verif.Proofs.FmtNonPow2
import Verif.Proofs.FmtNonPow2Cost
import Verif.Proofs.FmtParse
import Verif.Proofs.FmtPow2
import Verif.Proofs.FmtSink
import Verif.Proofs.FmtTime
import Verif.Proofs.Gcd
import Verif.Proofs.GcdCost
import Verif.Proofs.GcdLimit
import Verif.Proofs.GcdPortable
import Verif.Proofs.History
import Verif.Proofs.IBits
import Verif.Proofs.IDivOps
import Verif.Proofs.Interact
import Verif.Proofs.InteractPortable
import Verif.Proofs.Karatsuba
import Verif.Proofs.ModHistory
import Verif.Proofs.ModUnwind
import Verif.Proofs.Modular
import Verif.Proofs.ModularAdd
import Verif.Proofs.ModularCost
import Verif.Proofs.ModularFmt
import Verif.Proofs.ModularInv
import Verif.Proofs.ModularLimit
import Verif.Proofs.ModularMul
import Verif.Proofs.ModularPow
import Verif.Proofs.ModularTime
import Verif.Proofs.Mul
import Verif.Proofs.MulCost
import Verif.Proofs.MulOps
import Verif.Proofs.MulOpsTime
import Verif.Proofs.MulPower
import Verif.Proofs.MulSimple
import Verif.Proofs.MulTime
import Verif.Proofs.Ntt
import Verif.Proofs.NttTable
import Verif.Proofs.NttTool
import Verif.Proofs.Number
import Verif.Proofs.Parse
import Verif.Proofs.ParseBad
import Verif.Proofs.ParseCost
import Verif.Proofs.ParseEntry
import Verif.Proofs.ParsePow2
import Verif.Proofs.ParsePower
import Verif.Proofs.ParseTime
import Verif.Proofs.Pow
import Verif.Proofs.PowTime
import Verif.Proofs.PrimOps
import Verif.Proofs.Radix
import Verif.Proofs.Rand
import Verif.Proofs.RandCost
import Verif.Proofs.RandSeq
import Verif.Proofs.RandTime
import Verif.Proofs.RandTimeGen
import Verif.Proofs.RingMemory
import Verif.Proofs.Serde
import Verif.Proofs.SerdeErr
import Verif.Proofs.SerdeTime
import Verif.Proofs.Shift
import Verif.Proofs.ShiftCost
import Verif.Proofs.ShiftOps
import Verif.Proofs.ShiftOpsTime
import Verif.Proofs.Takes
import Verif.Proofs.Timed
import Verif.Proofs.Toom3
import Verif.Proofs.Unwind
import Verif.Props.AbsSub
import Verif.Props.Accumulate
import Verif.Props.AddTime
import Verif.Props.Address
import Verif.Props.Agreement
import Verif.Props.Arch
import Verif.Props.Arith
import Verif.Props.BitSetTime
import Verif.Props.Bits
import Verif.Props.Bytes
import Verif.Props.Checked
import Verif.Props.ClearBit
import Verif.Props.Consts
import Verif.Props.ConvertTime
import Verif.Props.Counted
import Verif.Props.CountedMore
import Verif.Props.DebugHex
import Verif.Props.DebugHexExact
import Verif.Props.Depth
import Verif.Props.DivTime
import Verif.Props.Factorial
import Verif.Props.FastDivide
import Verif.Props.Float
import Verif.Props.FloatOrder
import Verif.Props.Fmt
import Verif.Props.FmtSink
import Verif.Props.FmtTime
import Verif.Props.Gcd
import Verif.Props.GcdEven
import Verif.Props.GcdPortable
import Verif.Props.GcdTime
import Verif.Props.History
import Verif.Props.Identities
import Verif.Props.Interact
import Verif.Props.InteractPortable
import Verif.Props.Macros
import Verif.Props.ModHistory
import Verif.Props.ModUnwind
import Verif.Props.Modular
import Verif.Props.ModularFmt
import Verif.Props.ModularTime
import Verif.Props.MulTime
import Verif.Props.Ntt
import Verif.Props.NttTool
import Verif.Props.NumTraits
import Verif.Props.Number
import Verif.Props.Parse
import Verif.Props.ParseBad
import Verif.Props.ParseTime
import Verif.Props.Pow
import Verif.Props.PowTime
import Verif.Props.Prim
import Verif.Props.Rand
import Verif.Props.RandCost
import Verif.Props.RandSeq
import Verif.Props.RandTime
import Verif.Props.RingMemory
import Verif.Props.ScratchSize
import Verif.Props.Serde
import Verif.Props.SerdeErr
import Verif.Props.SerdeTime
import Verif.Props.ShiftTime
import Verif.Props.Unwind
import Verif.Props.Variables
import Verif.Spec.Address
import Verif.Spec.Agreement
import Verif.Spec.BitSet
import Verif.Spec.Bits
import Verif.Spec.Examples
import Verif.Spec.ExamplesModular
import Verif.Spec.Expr
import Verif.Spec.Float
import Verif.Spec.FloatOrder
import Verif.Spec.Fmt
import Verif.Spec.FmtSink
import Verif.Spec.Gcd
import Verif.Spec.History
import Verif.Spec.Interact
import Verif.Spec.ModHistory
import Verif.Spec.ModUnwind
import Verif.Spec.Modular
import Verif.Spec.NttTool
import Verif.Spec.Number
import Verif.Spec.Parse
import Verif.Spec.ParseLimit
import Verif.Spec.Radix
import Verif.Spec.Rand
import Verif.Spec.RandCost
import Verif.Spec.RandSeq
import Verif.Spec.RandTime
import Verif.Spec.RingMemory
import Verif.Spec.Unwind
import Verif.Tests.Arith
import Verif.Tests.Basic
import Verif.Tests.Bits
import Verif.Tests.Convert
import Verif.Tests.Doc
import Verif.Tests.Modular
import Verif.Tests.Radix
import Verif.Tests.Steps
import Verif.Tests.Unit
