import Verif.Num.PropsPoly
import Verif.Num.PropsCheb
import Verif.Num.PropsButcher
import Verif.Num.PropsPiecewise
import Verif.Num.PropsPiecewise2
import Verif.Num.PropsPdq
import Verif.Num.PropsPdq2
import Verif.Num.PropsPdq3
import Verif.Num.PropsTraj
import Verif.Num.PropsDae
import Verif.Num.PropsScheme
import Verif.Num.PropsScheme2
import Verif.Num.PropsScheme3
import Verif.Num.PropsScheme4
import Verif.Num.PropsScheme5
import Verif.Num.PropsInvariant
import Verif.Num.PropsSymplectic
import Verif.Num.LemColumns
import Verif.Num.PropsReverse
import Verif.Num.PropsExist
import Verif.Struct.Base
import Verif.Struct.Layout
import Verif.Struct.Spec
import Verif.Struct.Trav
import Verif.Struct.LemDict
import Verif.Struct.LemLayout
import Verif.Struct.LemBuild
import Verif.Struct.LemTrav
import Verif.Struct.LemNode
import Verif.Struct.LemPos
import Verif.Struct.LemSp
import Verif.Struct.PropsLayout
import Verif.Struct.PropsLayout2
import Verif.Struct.LemAcc
import Verif.Struct.LemTrav2
import Verif.Struct.PropsAccess
import Verif.Struct.PropsRepeat
import Verif.Struct.PropsSymm
import Verif.Struct.LemTop
import Verif.Struct.LemWrite
import Verif.Struct.Objs
import Verif.Struct.PropsObj
import Verif.Struct.LemSim
import Verif.Struct.Prefix
import Verif.Struct.LemShift
import Verif.Struct.LemPrefix
import Verif.Struct.LemView
import Verif.Struct.PropsPrefix
import Verif.Struct.BuildMap
import Verif.Struct.LemPrio
import Verif.Struct.PropsPrio
import Verif.Struct.EntryDef
import Verif.Struct.LemInv
import Verif.Struct.PropsVeccat
import Verif.Struct.PropsDefine
import Verif.Struct.LemExpr
import Verif.Struct.PropsExpr
import Verif.Struct.Ineq
import Verif.Struct.PropsIneq
import Verif.Struct.Product
import Verif.Struct.LemProduct
import Verif.Struct.PropsProduct
import Verif.Struct.Pickle
import Verif.Struct.PropsPickle
import Verif.Struct.PropsAll
import Verif.Struct.PropsNested
import Verif.Struct.PropsExtra
import Verif.Struct.PropsEntry
import Verif.Struct.PropsSyms
import Verif.Struct.Labels
import Verif.Struct.PropsLabels
import Verif.Struct.LemFlat
import Verif.Struct.PropsFlat
import Verif.Struct.Sub
import Verif.Struct.PropsSub
import Verif.Struct.Heap
import Verif.Struct.LemHeap
import Verif.Struct.PropsHeap
import Verif.Struct.LemCallable
import Verif.Struct.PropsCallable
import Verif.Num.PropsGuess
import Verif.Num.LemStable
import Verif.Num.PropsStable
import Verif.Num.PropsEnds
import Verif.Num.LemConverge
import Verif.Num.PropsConverge
import Verif.Num.PropsConverge2
import Verif.Num.PropsIntegrator
import Verif.Num.LemInterp
import Verif.Num.PropsApprox
import Verif.Num.PropsErrors
import Verif.Struct.PropsErrors
import Verif.Num.LemOrder
import Verif.Num.PropsOrder
import Verif.Num.LemSuper
import Verif.Num.LemAdjoint
import Verif.Num.LemSuperStep
import Verif.Num.PropsSuper
import Verif.Num.PropsSuper2
import Verif.Num.PropsErrors2
import Verif.Struct.PropsText
import Verif.Num.PropsGauss
import Verif.Num.PropsContract
import Verif.Num.PropsStiff
import Verif.Num.PropsInexact
import Verif.Num.PropsContract2
import Verif.Num.PropsDense
import Verif.Num.PropsDenseTol
import Verif.Num.PropsDenseTol2
import Verif.Num.Float
import Verif.Num.LemFloat
import Verif.Num.LemRound
import Verif.Num.PropsFloat
import Verif.Num.LemFloat2
import Verif.Num.PropsFloat2
import Verif.Num.LemFloat3
import Verif.Num.PropsFloat3
import Verif.Num.PropsFloat4
import Verif.Num.PropsFloatTraj
import Verif.Num.FloatPoly
import Verif.Num.LemFloatPoly
import Verif.Num.PropsFloatPoly
import Verif.Num.FloatPdq
import Verif.Num.LemFloatPdq
import Verif.Num.PropsFloatPdq
import Verif.Num.FloatScheme
import Verif.Num.LemFloatScheme
import Verif.Num.PropsFloatScheme
import Verif.Num.PropsFloatQuad
import Verif.Num.PropsQuadTol
import Verif.Struct.FlatPy
import Verif.Struct.PropsFlatPy
import Verif.Num.PyCall
import Verif.Num.PropsPyCall
import Verif.Struct.LemLink
import Verif.Struct.PropsLink
import Verif.Num.LemFloatDiff
import Verif.Num.PropsFloatDiff
import Verif.Num.LemFloatInterp
import Verif.Num.PropsFloatInterp
import Verif.Num.FloatCompose
import Verif.Num.LemFloatCompose
import Verif.Num.PropsFloatCompose
import Verif.Num.FloatIntegral
import Verif.Num.LemFloatIntegral
import Verif.Num.PropsFloatIntegral
import Verif.Num.FloatInterpolators
import Verif.Num.PropsFloatInterpolators
import Verif.Num.IntArrays
import Verif.Num.PropsIntArrays
import Verif.Struct.PropsNames
import Verif.Num.PropsChange
import Verif.Num.PropsTangent
import Verif.Num.PropsSens
import Verif.Num.PropsSens2
import Verif.Num.PropsSens3
import Verif.Num.PropsVariation
import Verif.Num.PropsAdjoint
import Verif.Num.PropsOptimal
import Verif.Num.PropsSymmetric
import Verif.Num.PropsFlow
import Verif.Num.PropsFlow2
import Verif.Num.PropsLayout
import Verif.Num.PropsControl
import Verif.Num.PropsControl2
import Verif.Num.PropsControl3
import Verif.Num.PropsStability
import Verif.Num.PropsStability2
import Verif.Num.PropsStability3
import Verif.Num.PropsControl4
import Verif.Num.PropsControl5
import Verif.Num.PropsControl6
import Verif.Num.Conform
import Verif.Struct.LemUniform
import Verif.Struct.PropsUniform
import Verif.Struct.LemLast
import Verif.Struct.PropsLast
import Verif.Struct.LemLens
import Verif.Struct.PropsLens
import Verif.Struct.LemLens2
import Verif.Struct.LemLens3
import Verif.Struct.PropsLens2
import Verif.Struct.LemTouch
import Verif.Struct.PropsTouch
import Verif.Num.LemTransfer
import Verif.Num.PropsTransfer
import Verif.Struct.PropsDelayed
import Verif.Struct.PropsExprData
import Verif.Struct.PropsAttr
import Verif.Struct.Conform
import Verif.Num.PropsIndex
import Verif.Num.PropsIndex2
import Verif.Struct.ViewMX
import Verif.Struct.PropsViewMX
import Verif.Struct.PickleAll
import Verif.Struct.PropsPickleAll
import Verif.Struct.SaveLoad
import Verif.Struct.PropsSaveLoad
import Verif.Struct.PropsPickleWrite
import Verif.Struct.PropsSymExpr
import Verif.Struct.PropsSymsSymm
import Verif.Struct.PropsVeccatAll
import Verif.Struct.PropsVeccatSymm
import Verif.Struct.PrefixText
import Verif.Struct.PropsPrefixText
