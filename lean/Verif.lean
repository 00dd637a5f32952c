import Verif.Prelude
import Verif.Model.GA
import Verif.Proofs.GAPairs
import Verif.Proofs.GARun
import Verif.Proofs.GAInv
import Verif.Proofs.GASolve
import Verif.Props.GA
import Verif.Model.BGA
import Verif.Proofs.BGACross
import Verif.Proofs.BGASelect
import Verif.Proofs.BGARun
import Verif.Props.BGA
import Verif.Model.Utils
import Verif.Proofs.Utils
import Verif.Props.Utils
import Verif.Model.ArraySetOps
import Verif.Proofs.ArraySetOps
import Verif.Props.ArraySetOps
import Verif.Model.Sparse
import Verif.Proofs.Sparse
import Verif.Props.Sparse
import Verif.Model.Relation
import Verif.Proofs.Relation
import Verif.Model.Expr
import Verif.Proofs.Expr
import Verif.Props.Relation
import Verif.Model.LP
import Verif.Proofs.LP
import Verif.Props.LP
import Verif.Model.TestFunctions
import Verif.Props.TestFunctions
import Verif.Model.Solve
import Verif.Proofs.Solve
import Verif.Props.Solve
import Verif.Model.Graph
import Verif.Proofs.Graph
import Verif.Props.Graph
import Verif.Model.Frames
import Verif.Proofs.Frames
import Verif.Props.Frames
import Verif.Props.FramesCopies
import Verif.Model.TensorOps
import Verif.Props.TensorOps
import Verif.Model.TrKernels
import Verif.Proofs.TrKernels
import Verif.Props.TrKernels
import Verif.Model.Numint
import Verif.Props.Numint
import Verif.Model.Lagrange
import Verif.Props.Lagrange
import Verif.Model.LeastSq
import Verif.Proofs.LeastSq
import Verif.Props.LeastSq
import Verif.Proofs.LeastSqDeriv
import Verif.Props.LeastSqDeriv
import Verif.Model.Weights
import Verif.Proofs.Weights
import Verif.Props.Weights
import Verif.Model.Knn
import Verif.Props.Knn
import Verif.Model.LinUtils
import Verif.Props.LinUtils
import Verif.Props.GenInverse
import Verif.Props.MatPred
import Verif.Model.FrameMem
import Verif.Props.FrameMem
import Verif.Model.Stacks
import Verif.Props.Stacks
import Verif.Model.Close
import Verif.Props.Close
import Verif.Model.Coeffs
import Verif.Props.Coeffs
import Verif.Model.Calculus
import Verif.Proofs.Calculus
import Verif.Props.Calculus
import Verif.Model.Rotation
import Verif.Props.Rotation
import Verif.Model.FrameArith
import Verif.Props.FrameArith
import Verif.Model.SolveApi
import Verif.Props.SolveApi
import Verif.Props.GAMore
import Verif.Model.SymInv
import Verif.Props.SymInv
import Verif.Model.Products
import Verif.Props.Products
import Verif.Model.Hist
import Verif.Props.Hist
import Verif.Model.DTypes
import Verif.Props.DTypes
import Verif.Model.Symbols
import Verif.Proofs.Symbols
import Verif.Props.Symbols
import Verif.Props.FramesMore
import Verif.Model.GAObject
import Verif.Proofs.GAObject
import Verif.Props.GAObject
import Verif.Props.UtilsMore
import Verif.Props.Refusals
import Verif.Props.RefusalsMore
import Verif.Props.ExprText
import Verif.Props.GAOrigin
import Verif.Proofs.SolveMinors
import Verif.Props.SolveMinors
import Verif.Props.FrameTotal
import Verif.Model.FunctionObj
import Verif.Proofs.FunctionObj
import Verif.Props.FunctionObj
import Verif.Proofs.SolveDiagonal
import Verif.Props.SolveDiagonal
import Verif.Props.CloseRanks
import Verif.Model.FrameUfunc
import Verif.Proofs.FrameUfunc
import Verif.Props.FrameUfunc
import Verif.Model.FitObjects
import Verif.Proofs.FitObjects
import Verif.Props.FitObjects
import Verif.Model.JaggedObjects
import Verif.Proofs.JaggedObjects
import Verif.Props.JaggedObjects
import Verif.Model.Rounding
import Verif.Proofs.Rounding
import Verif.Proofs.RoundingKernels
import Verif.Props.Rounding
import Verif.Model.RoundedFrames
import Verif.Proofs.RoundedFrames
import Verif.Props.RoundedFrames
import Verif.Model.GANan
import Verif.Proofs.GANan
import Verif.Props.GANan
import Verif.Model.RotationSym
import Verif.Props.RotationSym
import Verif.Model.GAChance
import Verif.Proofs.GAChance
import Verif.Props.GAChance
import Verif.Model.RoundedSolve
import Verif.Proofs.RoundedSolve
import Verif.Props.RoundedSolve
import Verif.Model.RoundedTurns
import Verif.Proofs.RoundedTurns
import Verif.Props.RoundedTurns
import Verif.Props.Returns
import Verif.Model.Einsum
import Verif.Proofs.Einsum
import Verif.Props.Einsum
import Verif.Model.MlsObj
import Verif.Proofs.MlsObj
import Verif.Props.MlsObj
import Verif.Model.CsrMem
import Verif.Proofs.CsrMem
import Verif.Props.CsrMem
import Verif.Model.RoundedNormal
import Verif.Proofs.RoundedNormal
import Verif.Props.RoundedNormal
import Verif.Model.FrameNew
import Verif.Props.FrameNew
import Verif.Model.RoundedUtils
import Verif.Props.RoundedUtils
import Verif.Model.GALaws
import Verif.Proofs.GALaws
import Verif.Props.GALaws
import Verif.Model.NanData
import Verif.Proofs.NanData
import Verif.Props.NanData
import Verif.Model.RoundedClosed
import Verif.Proofs.RoundedClosed
import Verif.Props.RoundedClosed
import Verif.Model.CsrNumba
import Verif.Proofs.CsrNumba
import Verif.Props.CsrNumba
import Verif.Model.Independent
import Verif.Proofs.Independent
import Verif.Props.Independent
import Verif.Model.EliteShare
import Verif.Props.EliteShare
import Verif.Model.RoundedFit
import Verif.Proofs.RoundedFit
import Verif.Props.RoundedFit
import Verif.Model.RoundedLP
import Verif.Proofs.RoundedLP
import Verif.Props.RoundedLP
import Verif.Model.TensorProg
import Verif.Proofs.TensorProg
import Verif.Props.TensorProg
import Verif.Model.WeakRefs
import Verif.Proofs.WeakRefs
import Verif.Props.WeakRefs
import Verif.Model.Parallel
import Verif.Proofs.Parallel
import Verif.Props.Parallel
import Verif.Props.ParallelTensors
import Verif.Props.ParallelBlocks
import Verif.Model.TensorMem
import Verif.Proofs.TensorMem
import Verif.Props.TensorMem
import Verif.Model.Mixed
import Verif.Props.Mixed
import Verif.Model.RoundedHess
import Verif.Proofs.RoundedHess
import Verif.Props.RoundedHess
import Verif.Model.LPSolve
import Verif.Props.LPSolve
import Verif.Model.IndependentMany
import Verif.Proofs.IndependentMany
import Verif.Props.IndependentMany
import Verif.Model.Layout
import Verif.Props.Layout
import Verif.Model.Choice
import Verif.Props.Choice
import Verif.Model.GAMem
import Verif.Props.GAMem
import Verif.Model.EinsumPath
import Verif.Proofs.EinsumPath
import Verif.Props.EinsumPath
import Verif.Model.RoundedEinsum
import Verif.Proofs.RoundedEinsum
import Verif.Props.RoundedEinsum
import Verif.Model.Testing
import Verif.Props.Testing
import Verif.Model.Vectorised
import Verif.Proofs.Vectorised
import Verif.Props.Vectorised
import Verif.Model.GASession
import Verif.Proofs.GASession
import Verif.Props.GASession
import Verif.Model.Objective
import Verif.Proofs.Objective
import Verif.Props.Objective
import Verif.Model.LPText
import Verif.Proofs.LPText
import Verif.Props.LPText
import Verif.Model.GAFailures
import Verif.Proofs.GAFailures
import Verif.Props.GAFailures
import Verif.Model.JaggedUnique
import Verif.Props.JaggedUnique
import Verif.Model.GenSymbols
import Verif.Props.GenSymbols
import Verif.Proofs.LagrangeError
import Verif.Props.LagrangeError
import Verif.Props.KnnAccuracy
import Verif.Props.FitAccuracy
import Verif.Proofs.QuadAccuracy
import Verif.Props.QuadAccuracy
import Verif.Proofs.GaussExists
import Verif.Props.GaussRules
import Verif.Props.BGAResolution
import Verif.Props.Himmelblau
