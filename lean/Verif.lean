import Verif.Spec.Fock
import Verif.Lemmas.Fock
import Verif.Lemmas.NormalOrder
import Verif.Lemmas.NormalOrderSem
import Verif.Lemmas.Dict
import Verif.Lemmas.Mul
import Verif.Props.OperatorAlgebra
import Verif.Model.FermionicInplace
import Verif.Model.FermionicOperator
import Verif.Model.Operators
import Verif.Lemmas.OperatorsSem
import Verif.Lemmas.Conserve
import Verif.Props.Excitations
import Verif.Model.FermionicFold
import Verif.Model.FermionicText
import Verif.Model.QiskitOrder
import Verif.Spec.Embed
import Verif.Spec.Reorder
import Verif.Lemmas.Fold
import Verif.Lemmas.Text
import Verif.Lemmas.Reorder
import Verif.Props.Folding
import Verif.Spec.CIState
import Verif.Model.StateAlgebra
import Verif.Model.CISpaces
import Verif.Lemmas.Bits
import Verif.Lemmas.StateKernel
import Verif.Lemmas.StateSem
import Verif.Lemmas.StateOps
import Verif.Lemmas.CISpaces
import Verif.Props.StateAlgebra
import Verif.Spec.CISpace
import Verif.Lemmas.CIExtended
import Verif.Props.CISpaces
import Verif.Spec.Exponential
import Verif.Lemmas.KeyInv
import Verif.Lemmas.ClosedSpace
import Verif.Lemmas.Spectral
import Verif.Lemmas.StringCube
import Verif.Lemmas.Modes
import Verif.Spec.Ansatz
import Verif.Model.Ansatz
import Verif.Lemmas.ModePoly
import Verif.Lemmas.ModeTables
import Verif.Lemmas.SaFreq
import Verif.Lemmas.AnsatzGen
import Verif.Lemmas.AnsatzSem
import Verif.Lemmas.AnsatzAct
import Verif.Lemmas.AnsatzExc
import Verif.Lemmas.AnsatzChain
import Verif.Lemmas.FoldKeys
import Verif.Lemmas.HamKeys
import Verif.Model.UpsGradient
import Verif.Lemmas.AnsatzLayout
import Verif.Lemmas.AnsatzRows
import Verif.Lemmas.EnergySem
import Verif.Props.Ansatz
import Verif.Model.UccState
import Verif.Lemmas.UccSem
import Verif.Props.Ucc
import Verif.Spec.Density
import Verif.Model.Density
import Verif.Lemmas.Density
import Verif.Lemmas.DensityComm
import Verif.Lemmas.DensityHess
import Verif.Lemmas.DensityFill
import Verif.Props.Density
import Verif.Props.Rdm
import Verif.Spec.Iterators
import Verif.Model.Iterators
import Verif.Lemmas.Iterators
import Verif.Props.Iterators
import Verif.Spec.OrbitalSpaces
import Verif.Spec.Structures
import Verif.Model.OrbitalSpaces
import Verif.Model.Structures
import Verif.Lemmas.OrbitalSpaces
import Verif.Lemmas.PerfectPairing
import Verif.Lemmas.Structures
import Verif.Props.OrbitalSpaces
import Verif.Props.PerfectPairing
import Verif.Props.Structures
import Verif.Spec.Qubits
import Verif.Lemmas.Qubits
import Verif.Model.Cliques
import Verif.Spec.Cliques
import Verif.Lemmas.Cliques
import Verif.Lemmas.Measure
import Verif.Props.Cliques
import Verif.Model.Layout
import Verif.Spec.Layout
import Verif.Lemmas.Routing
import Verif.Lemmas.Permute
import Verif.Lemmas.SwapBits
import Verif.Lemmas.LayoutCorrect
import Verif.Props.Layout
import Verif.Model.Determinants
import Verif.Spec.DetCircuits
import Verif.Spec.Postselect
import Verif.Lemmas.DetCircuits
import Verif.Lemmas.Csfs
import Verif.Lemmas.Postselect
import Verif.Props.Determinants
import Verif.Model.Interface
import Verif.Spec.Interface
import Verif.Lemmas.Interface
import Verif.Props.Interface
import Verif.Model.Variance
import Verif.Spec.Variance
import Verif.Lemmas.Variance
import Verif.Props.Variance
import Verif.Spec.Trig
import Verif.Model.Optimizers
import Verif.Lemmas.Trig
import Verif.Props.Optimizers
import Verif.Model.Transforms
import Verif.Model.WaveFunction
import Verif.Spec.WaveFunction
import Verif.Lemmas.WaveFunction
import Verif.Lemmas.MatrixRotation
import Verif.Lemmas.WaveFunctionOpt
import Verif.Lemmas.WaveFunctionRun
import Verif.Props.WaveFunction
import Verif.Props.WaveFunctionOpt
import Verif.Model.Molecule
import Verif.Spec.Molecule
import Verif.Props.Molecule
import Verif.Props.Transforms
import Verif.Model.IntegralCache
import Verif.Props.IntegralCache
import Verif.Model.HartreeFock
import Verif.Spec.HartreeFock
import Verif.Lemmas.HartreeFock
import Verif.Lemmas.Diis
import Verif.Props.HartreeFock
import Verif.Model.LinearResponse
import Verif.Spec.LinearResponse
import Verif.Lemmas.LinearResponse
import Verif.Props.LinearResponse
import Verif.Model.Integrals
import Verif.Spec.Integrals
import Verif.Lemmas.FillTable
import Verif.Lemmas.HermiteGaussian
import Verif.Lemmas.Expansion
import Verif.Lemmas.OneElectron
import Verif.Lemmas.Placement
import Verif.Lemmas.Normalization
import Verif.Lemmas.CoulombTable
import Verif.Lemmas.Coulomb
import Verif.Lemmas.CoulombPrim
import Verif.Lemmas.Repulsion
import Verif.Lemmas.RepulsionDriver
import Verif.Lemmas.CauchySchwarz
import Verif.Lemmas.Boys
import Verif.Lemmas.KernelSymmetry
import Verif.Model.MolIntegrals
import Verif.Spec.MolIntegrals
import Verif.Lemmas.MolIntegrals
import Verif.Props.Integrals
import Verif.Lemmas.CircuitDouble
import Verif.Lemmas.CircuitExp
import Verif.Lemmas.CircuitFock
import Verif.Lemmas.CircuitGates
import Verif.Lemmas.CircuitInner
import Verif.Lemmas.CircuitLadder
import Verif.Lemmas.CircuitLayouts
import Verif.Lemmas.CircuitNear
import Verif.Lemmas.CircuitRun
import Verif.Lemmas.CircuitState
import Verif.Lemmas.CircuitTrig
import Verif.Lemmas.Excitations
import Verif.Lemmas.Givens
import Verif.Lemmas.ParamNames
import Verif.Lemmas.TrigState
import Verif.Model.Circuits
import Verif.Model.Py
import Verif.Props.Circuits
import Verif.Spec.CircuitLayouts
import Verif.Spec.Circuits
import Verif.Spec.Excitations
import Verif.Spec.Operators
import Verif.Lemmas.Truncated
import Verif.Props.Truncated
import Verif.Model.Response
import Verif.Spec.Response
import Verif.Lemmas.ResponseOps
import Verif.Lemmas.ResponseLoop
import Verif.Lemmas.ResponseEntries
import Verif.Lemmas.ResponseGens
import Verif.Lemmas.ResponseMats
import Verif.Props.Response
import Verif.Model.ResponseProjected
import Verif.Lemmas.ResponseAssemble
import Verif.Lemmas.ResponseProjected
import Verif.Props.ResponseProjected
import Verif.Model.ResponseTransfer
import Verif.Lemmas.ResponseOrtho
import Verif.Lemmas.ResponseTransfer
import Verif.Lemmas.Uncore
import Verif.Props.ResponseTransfer
import Verif.Model.ResponseDipole
import Verif.Spec.ResponseDipole
import Verif.Lemmas.ResponseBlocks
import Verif.Lemmas.ResponseDipole
import Verif.Props.ResponseDipole
import Verif.Props.ResponseAllProjected
import Verif.Model.ResponseExtended
import Verif.Spec.ResponseExtended
import Verif.Lemmas.ExtendedKeys
import Verif.Lemmas.ExtendedSpace
import Verif.Lemmas.ExtendedRun
import Verif.Lemmas.ExtendedRef
import Verif.Lemmas.ExtendedEntries
import Verif.Lemmas.ExtendedLoops
import Verif.Lemmas.ExtendedStates
import Verif.Lemmas.ExtendedUnitary
import Verif.Props.ResponseExtended
import Verif.Props.ResponseExtendedReal
import Verif.Lemmas.ExtendedDipole
import Verif.Props.ResponseExtendedDipole
import Verif.Model.QuantumResponse
import Verif.Spec.QuantumResponse
import Verif.Lemmas.QuantumResponse
import Verif.Props.QuantumResponse
import Verif.Model.CircuitWave
import Verif.Props.CircuitWave
import Verif.Spec.HigherDensity
import Verif.Model.HigherDensity
import Verif.Lemmas.HigherDensity
import Verif.Props.HigherDensity
import Verif.Model.QuantumDipole
import Verif.Lemmas.QuantumDipole
import Verif.Props.QuantumDipole
import Verif.Model.QuantumTransfer
import Verif.Spec.QuantumTransfer
import Verif.Lemmas.QuantumTransfer
import Verif.Props.QuantumTransfer
import Verif.Props.QuantumTransferDipole
import Verif.Model.Sampler
import Verif.Spec.Sampler
import Verif.Lemmas.Sampler
import Verif.Lemmas.SamplerRun
import Verif.Lemmas.SamplerOps
import Verif.Lemmas.JWMap
import Verif.Lemmas.SamplerUse
import Verif.Props.Sampler
import Verif.Model.AnsatzChoice
import Verif.Spec.AnsatzChoice
import Verif.Lemmas.AnsatzChoice
import Verif.Props.AnsatzChoice
import Verif.Model.StateAverage
import Verif.Spec.StateAverage
import Verif.Lemmas.EigSym
import Verif.Lemmas.StateAverage
import Verif.Props.StateAverage
import Verif.Model.CircuitCache
import Verif.Spec.CircuitCache
import Verif.Lemmas.CircuitCache
import Verif.Lemmas.CircuitCacheRun
import Verif.Props.CircuitCache
import Verif.Model.FromUps
import Verif.Spec.FromUps
import Verif.Lemmas.SamplerStart
import Verif.Lemmas.FromUps
import Verif.Model.SaStates
import Verif.Lemmas.SaStates
import Verif.Props.SaStates
import Verif.Props.FromUps
import Verif.Spec.Spin
import Verif.Lemmas.Spin
import Verif.Props.Spin
import Verif.Spec.OrbitalDerivative
import Verif.Lemmas.OrbitalDerivative
import Verif.Props.OrbitalDerivative
import Verif.Model.MoleculeInput
import Verif.Spec.MoleculeInput
import Verif.Props.MoleculeInput
import Verif.Model.Session
import Verif.Spec.Session
import Verif.Props.Session
import Verif.Model.UpsEnv
import Verif.Spec.UpsEnv
import Verif.Props.UpsEnv
import Verif.Model.UpsBuilt
import Verif.Props.UpsBuilt
import Verif.Model.SaEnv
import Verif.Spec.SaEnv
import Verif.Props.SaEnv
import Verif.Model.SaBuilt
import Verif.Props.SaBuilt
import Verif.Lemmas.ExpPerturb
import Verif.Lemmas.FockNorm
import Verif.Lemmas.UccGrad
import Verif.Model.UccEnv
import Verif.Model.UccBuilt
import Verif.Spec.UccEnv
import Verif.Props.UccEnv
import Verif.Props.UccBuilt
import Verif.Model.CircEnv
import Verif.Spec.CircEnv
import Verif.Lemmas.CircEnv
import Verif.Props.CircEnv
import Verif.Props.CircBuilt
import Verif.Model.SaCircEnv
import Verif.Spec.SaCircEnv
import Verif.Lemmas.SaCircEnv
import Verif.Props.SaCircEnv
import Verif.Props.SaCircBuilt
import Verif.Model.ReadOut
import Verif.Spec.ReadOut
import Verif.Lemmas.ReadOut
import Verif.Lemmas.ReadOutRun
import Verif.Props.ReadOut
import Verif.Model.Precalc
import Verif.Spec.Precalc
import Verif.Lemmas.Precalc
import Verif.Props.Precalc
import Verif.Props.ResponseAgree
import Verif.Model.Trotter
import Verif.Spec.Trotter
import Verif.Lemmas.PauliAlgebra
import Verif.Lemmas.TrotterOde
import Verif.Lemmas.Trotter
import Verif.Lemmas.TrotterRun
import Verif.Lemmas.TrotterMap
import Verif.Lemmas.TrotterLayouts
import Verif.Props.Trotter
import Verif.Model.QuantumStd
import Verif.Spec.QuantumStd
import Verif.Lemmas.RandomMats
import Verif.Lemmas.QuantumStd
import Verif.Props.QuantumStd
import Verif.Model.Transpile
import Verif.Spec.Transpile
import Verif.Lemmas.Transpile
import Verif.Props.Transpile
import Verif.Model.TranspileCsf
import Verif.Spec.TranspileCsf
import Verif.Lemmas.TranspileCsf
import Verif.Props.TranspileCsf
import Verif.Model.ProjStd
import Verif.Spec.ProjStd
import Verif.Lemmas.RandomProducts
import Verif.Lemmas.ProjStd
import Verif.Lemmas.ProjStdVar
import Verif.Props.ProjStd
import Verif.Model.QubitMap
import Verif.Spec.QubitMap
import Verif.Lemmas.PauliBasis
import Verif.Lemmas.QubitMap
import Verif.Lemmas.QubitMapRun
import Verif.Lemmas.PauliDiag
import Verif.Lemmas.QubitMapLost
import Verif.Props.QubitMap
import Verif.Spec.UpsBuilt
import Verif.Model.StdAnalysis
import Verif.Spec.StdAnalysis
import Verif.Lemmas.StdAnalysis
import Verif.Lemmas.Contributions
import Verif.Props.StdAnalysis
import Verif.Model.RotoEvaluator
import Verif.Lemmas.RotoEvaluator
import Verif.Props.RotoEvaluator
import Verif.Model.StatesRoto
import Verif.Model.SaCircRoto
import Verif.Spec.StatesRoto
import Verif.Props.StatesRoto
import Verif.Props.SaCircRoto
import Verif.Model.CircRoto
import Verif.Props.CircRoto
import Verif.Lemmas.OrbitalsRotated
import Verif.Model.OrthoCheck
import Verif.Spec.OrthoCheck
import Verif.Props.OrthoCheck
import Verif.Model.OperatorInfo
import Verif.Spec.OperatorInfo
import Verif.Props.OperatorInfo
