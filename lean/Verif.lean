import Verif.Props.Construct
import Verif.Props.Entry
import Verif.Props.Arith
import Verif.Props.Lines
import Verif.Props.Walks
import Verif.Props.Diagonal
import Verif.Props.Derived
import Verif.Props.Ulp
import Verif.Props.Vectors
import Verif.Props.VecNorms
import Verif.Props.LU
import Verif.Props.Cholesky
import Verif.Props.RectCholesky
import Verif.Props.QR
import Verif.Props.RRQR
import Verif.Props.CopySub
import Verif.Props.Tri
import Verif.Props.Bi
import Verif.Props.Hess
import Verif.Props.Schur
import Verif.Props.Eigen
import Verif.Props.EigenUse
import Verif.Props.Svd
import Verif.Props.SvdUse
import Verif.Model.Heap
import Verif.Model.HeapLU
import Verif.Model.HeapDec
import Verif.Lemmas.HeapSim
import Verif.Lemmas.HeapObj
import Verif.Lemmas.HeapCopy
import Verif.Lemmas.HeapRun
import Verif.Props.Alias
import Verif.Props.Overlap
import Verif.Model.HeapMat
import Verif.Model.HeapSvd
import Verif.Lemmas.HeapDec
import Verif.Lemmas.HeapMat
import Verif.Lemmas.HeapSvd
import Verif.Lemmas.HeapNew
import Verif.Props.Inputs
import Verif.Model.Iter
import Verif.Model.More
import Verif.Props.Iter
import Verif.Props.More
import Verif.Lemmas.EigenGen
import Verif.Props.EigenGen
import Verif.Lemmas.SchurErr
import Verif.Lemmas.SchurErr2
import Verif.Lemmas.SchurErr3
import Verif.Props.SchurErr
import Verif.Base.Rnd
import Verif.Lemmas.Round
import Verif.Props.Round
import Verif.Lemmas.RoundLU
import Verif.Props.RoundLU
import Verif.Lemmas.RoundChol
import Verif.Props.RoundChol
import Verif.Lemmas.EigVec
import Verif.Props.EigenVec
import Verif.Props.DiagWalk
import Verif.Props.RoundQR
import Verif.Props.RoundQRSolve
import Verif.Props.Errors
import Verif.Props.SchurRun
import Verif.Props.Cache
import Verif.Props.RoundDet
import Verif.Props.RoundLUAll
import Verif.Props.SvdAll
import Verif.Lemmas.RoundFro
import Verif.Lemmas.RoundBi
import Verif.Lemmas.RoundBiUV
import Verif.Props.RoundBi
import Verif.Lemmas.UlpBits
import Verif.Lemmas.RoundHess
import Verif.Lemmas.RoundHessRed
import Verif.Props.RoundHess
import Verif.Lemmas.RoundHessP
import Verif.Props.RoundHessP
import Verif.Model.Solver
import Verif.Props.Solver
import Verif.Lemmas.RoundTri
import Verif.Lemmas.RoundTriRed
import Verif.Lemmas.B64Eval
import Verif.Props.RoundTri
import Verif.Lemmas.RoundTriQ
import Verif.Props.RoundTriQ
import Verif.Lemmas.RoundRot
import Verif.Lemmas.RoundSweep
import Verif.Lemmas.RoundTurn
import Verif.Lemmas.RoundQL
import Verif.Lemmas.RoundEig
import Verif.Props.RoundEig
import Verif.Props.Defaults
import Verif.Props.RoundPow
import Verif.Props.RoundRoot
import Verif.Props.RoundEigSolve
import Verif.Props.RoundRectChol
import Verif.Lemmas.RoundSvdTurn
import Verif.Lemmas.RoundSvdStep
import Verif.Lemmas.RoundSvdIter
import Verif.Lemmas.RoundSvdQr
import Verif.Lemmas.RoundSvdRound
import Verif.Lemmas.RoundHypot
import Verif.Props.RoundSvd
import Verif.Lemmas.RoundSvdHH
import Verif.Lemmas.RoundSvdRed
import Verif.Lemmas.RoundSvdGen
import Verif.Props.RoundSvdRed
import Verif.Lemmas.Weyl
import Verif.Props.Weyl
import Verif.Props.RoundRank
import Verif.Props.RoundPinv
import Verif.Props.SvdTiny
import Verif.Props.RoundEigDet
import Verif.Props.EigTiny
import Verif.Props.RoundCov
import Verif.Props.EigHuge
import Verif.Props.RoundUnit
import Verif.Props.RoundCos
import Verif.Props.RoundProj
import Verif.Props.RoundDist
import Verif.Props.RoundSymm
import Verif.Props.RoundNormZero
import Verif.Props.RoundMono
import Verif.Props.RoundGram
import Verif.Props.RoundComm
