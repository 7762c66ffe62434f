import Verif.Core
import Verif.Props.IntBasic
import Verif.Props.Div
import Verif.Props.IntWide
import Verif.Props.Mem
import Verif.Props.Float
import Verif.Props.FloatMul
import Verif.Props.FloatDiv
import Verif.Props.Conv
import Verif.Props.LibmRound
import Verif.Props.LibmMinMax
import Verif.Props.LibmParts
import Verif.Props.LibmScalbn
import Verif.Props.LibmFmod
import Verif.Props.LibmRemquo
import Verif.Props.LibmFma
import Verif.Props.LibmSqrt
import Verif.Props.LibmHex
import Verif.Props.Sync
import Verif.Props.SyncLLSC
import Verif.Props.Detect
import Verif.Props.LibmHexFmt
import Verif.Props.LibmHypot
import Verif.Libm.PiDigits
import Verif.Libm.PiDist
import Verif.Libm.RemPio2
import Verif.Libm.RemPio2Val
import Verif.Libm.RemPio2Int
import Verif.Libm.RemPio2Frac
import Verif.Libm.RemPio2Compl
import Verif.Libm.RemPio2Loop
import Verif.Libm.RemPio2Tail
import Verif.Libm.RemPio2Sum
import Verif.Libm.RemPio2Comp
import Verif.Libm.RemPio2Main
import Verif.Libm.RemPio2Top
import Verif.Libm.RemPio2Cw
import Verif.Libm.RemPio2Med
import Verif.Libm.RemPio2All
import Verif.Libm.RemPio2F
import Verif.Props.LibmPio2
import Verif.Libm.PolyBound
import Verif.Libm.FaithfulTo
import Verif.Libm.ErrCalc
import Verif.Libm.Trig
import Verif.Libm.TrigK
import Verif.Libm.TrigS
import Verif.Libm.TrigMain
import Verif.Libm.TrigF
import Verif.Props.LibmTrig
import Verif.Libm.Tan
import Verif.Libm.TanF
import Verif.Libm.TanK
import Verif.Libm.TanS
import Verif.Libm.TanO
import Verif.Libm.TanB
import Verif.Libm.TanC
import Verif.Libm.TanMain
import Verif.Props.LibmTan
import Verif.Libm.GFv
import Verif.Libm.PolyMul
import Verif.Libm.ExpR
import Verif.Libm.ExpCore
import Verif.Libm.ExpScale
import Verif.Libm.ExpRed
import Verif.Libm.Exp
import Verif.Libm.ExpMain
import Verif.Libm.ExpFMain
import Verif.Props.LibmExp
import Verif.Libm.LogR
import Verif.Libm.LogCore
import Verif.Libm.LogK
import Verif.Libm.LogRed
import Verif.Libm.Log
import Verif.Libm.LogMain
import Verif.Libm.LogFMain
import Verif.Libm.LogSpec
import Verif.Props.LibmLog
import Verif.Libm.AtanR
import Verif.Libm.AtanCore
import Verif.Libm.AtanRed
import Verif.Libm.GFvSign
import Verif.Libm.Atan
import Verif.Libm.AtanMain
import Verif.Libm.AtanFMain
import Verif.Props.LibmAtan
import Verif.Libm.Atan2R
import Verif.Libm.Atan2
import Verif.Libm.Atan2Main
import Verif.Libm.Atan2FMain
import Verif.Props.LibmAtan2
import Verif.Libm.IvCalc
import Verif.Libm.NativeEq
import Verif.Libm.AsinR
import Verif.Libm.Asin
import Verif.Libm.AsinRat
import Verif.Libm.AsinCore
import Verif.Libm.AsinGen
import Verif.Libm.AsinCases
import Verif.Libm.AsinMain
import Verif.Libm.AsinFMain
import Verif.Libm.AsinEnds
import Verif.Props.LibmAsin
import Verif.Libm.Cbrtf
import Verif.Libm.CbrtR
import Verif.Libm.CbrtfGuess
import Verif.Libm.CbrtfMain
import Verif.Props.LibmCbrtf
import Verif.Libm.Expm1
import Verif.Libm.Expm1R
import Verif.Libm.Expm1Prog
import Verif.Libm.Expm1Core
import Verif.Libm.Expm1Tail
import Verif.Libm.Expm1Sum
import Verif.Libm.Expm1Red
import Verif.Libm.Expm1Inst
import Verif.Libm.Expm1Main
import Verif.Libm.Expm1FMain
import Verif.Props.LibmExpm1
import Verif.Libm.Hyper
import Verif.Libm.RelErr
import Verif.Libm.HyperR
import Verif.Libm.HyperCore
import Verif.Libm.HyperTail
import Verif.Libm.HyperMain
import Verif.Libm.HyperFMain
import Verif.Props.LibmHyper
import Verif.Libm.Log1p
import Verif.Libm.Log1pCore
import Verif.Libm.Log1pRed
import Verif.Libm.Log1pMain
import Verif.Libm.Log1pFMain
import Verif.Props.LibmLog1p
import Verif.Libm.InvHyp
import Verif.Libm.RelCalc
import Verif.Libm.InvHypCore
import Verif.Libm.InvHypNan
import Verif.Libm.InvHypMain
import Verif.Libm.InvHypFMain
import Verif.Props.LibmInvHyp
import Verif.Libm.Log2
import Verif.Libm.LogSkel
import Verif.Libm.Log2Core
import Verif.Libm.Log2Scale
import Verif.Libm.Log2Main
import Verif.Libm.Log2FMain
import Verif.Libm.Log2Spec
import Verif.Props.LibmLog2
import Verif.Libm.Exp2
import Verif.Libm.Exp2R
import Verif.Libm.Exp2Red
import Verif.Libm.Exp2F
import Verif.Libm.Exp2D
import Verif.Libm.Exp2Top
import Verif.Libm.Exp10F
import Verif.Props.LibmExp2
import Verif.Libm.Cbrt
import Verif.Libm.CbrtStart
import Verif.Libm.CbrtStep
import Verif.Libm.CbrtNewton
import Verif.Libm.CbrtRefine
import Verif.Libm.CbrtFinish
import Verif.Libm.CbrtTop
import Verif.Props.LibmCbrt
import Verif.Libm.Pow
import Verif.Libm.PowFront
import Verif.Libm.PowSpecial
import Verif.Libm.PowNeg
import Verif.Props.LibmPow
import Verif.Libm.PowCalc
import Verif.Libm.PowWord
import Verif.Libm.PowLogD
import Verif.Libm.PowSumD
import Verif.Libm.PowExpD
import Verif.Libm.PowExp2D
import Verif.Libm.PowLogWordD
import Verif.Libm.PowLogFinD
import Verif.Libm.PowFinishD
import Verif.Libm.PowNearD
import Verif.Libm.PowCoreD
import Verif.Props.LibmPowAcc
import Verif.Libm.Exp10
import Verif.Libm.Exp10D
import Verif.Props.LibmExp10
import Verif.Libm.Erf
import Verif.Libm.ErfD
import Verif.Libm.ErfMain
import Verif.Props.LibmErf
import Verif.Libm.ErfF
import Verif.Libm.ErfFD
import Verif.Libm.ErfFMain
import Verif.Props.LibmErfF
import Verif.Libm.ErfR
import Verif.Libm.ErfAcc
import Verif.Props.LibmErfAcc
