import Verif.Enums
import Verif.ActiveSet
import Verif.ActiveSetProofs
import Verif.PropsActiveSet
import Verif.Scalar
import Verif.Eigen
import Verif.Solver
import Verif.SolverSafety
import Verif.PropsSafety
import Verif.SolverSim
import Verif.PropsSim
import Verif.RealLin
import Verif.RealFac
import Verif.Spec
import Verif.Exact
import Verif.ExactStep
import Verif.ExactSelect
import Verif.ExactLoop
import Verif.ExactInit
import Verif.EqPrefix
import Verif.ExactDual
import Verif.ExactSolve
import Verif.ExactTerm
import Verif.ExactThreshold
import Verif.Trace
import Verif.PropsTrace
import Verif.EvalKit
import Verif.PropsBasic
import Verif.BlockChol
import Verif.BlockCholProofs
import Verif.ArrowCholProofs
import Verif.BlockSolveProofs
import Verif.PropsBlock
import Verif.Internal
import Verif.PropsInternal
import Verif.PropsOrtho
import Verif.Experimental
import Verif.ExpActive
import Verif.ExpFac
import Verif.ExpInit
import Verif.ExpDrop
import Verif.ExpSafe
import Verif.ExpWarm
import Verif.PropsExp
import Verif.ExpThreshold
import Verif.ExpSim
import Verif.PropsExpSim
import Verif.PropsExpEx
import Verif.Box
import Verif.BoxProofs
import Verif.BoxExact
import Verif.PropsBox
import Verif.Problems
import Verif.PropsKkt
import Verif.PropsProblems
import Verif.Options
import Verif.PropsOptions
import Verif.ExecKit
import Verif.PropsCounter
import Verif.Structured
import Verif.StructDense
import Verif.StructStep
import Verif.StructSim
import Verif.StructSolve
import Verif.StructInv
import Verif.StructRel
import Verif.StructSafe
import Verif.StructHist
import Verif.PropsStruct
import Verif.PropsStructAny
import Verif.BlockAlias
import Verif.BoxGen
import Verif.RandomPb
import Verif.PropsRandom
import Verif.ExactBackward
import Verif.PropsThreshold
import Verif.PropsBackward
import Verif.ExactCert
import Verif.RandomMat
import Verif.PropsRandomMat
import Verif.PropsFloat
import Verif.PropsPipeline
import Verif.PropsWarm
import Verif.BoxTerm
import Verif.Ieee
import Verif.IeeeErr
import Verif.PropsIeee
import Verif.Skip
import Verif.PropsNan
import Verif.PropsMeta
import Verif.PropsStructSuccess
import Verif.PropsRandomShuffle
import Verif.PropsCert
import Verif.Adaptors
import Verif.PropsAdaptors
import Verif.PropsAdaptorsGI
import Verif.ExecFrame
import Verif.PropsCycle
import Verif.QpsReader
import Verif.QpsSpec
import Verif.QpsRead
import Verif.QpsSem
import Verif.PropsQps
import Verif.PropsExpLower
import Verif.LogText
import Verif.MatlabSpec
import Verif.LogRead
import Verif.PropsLogText
import Verif.SolveLog
import Verif.PropsSolveLog
import Verif.PropsSolveLogEx
import Verif.XSolveLog
import Verif.PropsXSolveLog
import Verif.PropsXSolveLog2
import Verif.PropsXSolveLogEx
import Verif.Sizes
import Verif.PropsSizes
import Verif.Machine
import Verif.PropsSizesX
import Verif.PropsSizesB
import Verif.IeeeChol
import Verif.IeeeCholOk
import Verif.IeeeCholRun
import Verif.PropsIeeeChol
import Verif.PropsIeeeCholOk
import Verif.IeeeSubst
import Verif.PropsIeeeMin
import Verif.PropsIeeeMinOk
import Verif.IeeeSubstOk
import Verif.PropsIeeeSolve
import Verif.PropsSolveLogSel
import Verif.PropsIeeeObj
import Verif.PropsExamples
import Verif.PropsIk
import Verif.PropsBlockLog2
import Verif.PropsBlockLogEx
import Verif.LogStep
import Verif.PropsLogStep
import Verif.PropsBlockLogStep
import Verif.PropsLogStepEx
import Verif.InvErr
import Verif.PropsIeeeWarm
import Verif.InvErrObj
import Verif.PropsIeeeWarmObj
import Verif.PropsIeeeInside
import Verif.PropsInputLog
import Verif.PropsConvex
import Verif.PropsXDataLog
import Verif.PropsChange
import Verif.PropsAgree
import Verif.PropsSplit
import Verif.EnumsIO
import Verif.PropsEnumsIO
import Verif.PropsWarmMeta
import Verif.PropsBoundsStab
import Verif.PropsRemove
import Verif.PropsLeastSquares
import Verif.PropsProject
import Verif.PropsObjStab
import Verif.PropsUnique
import Verif.PropsFarkas
