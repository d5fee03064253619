import Verif.Base.Nega
import Verif.Base.Go
import Verif.Base.Float64
import Verif.Base.Limb
import Verif.Base.LimbInst
import Verif.Base.Primes
import Verif.Props.IDSet
import Verif.Props.KeySets
import Verif.Props.KeyLocal
import Verif.Props.MissingKeys
import Verif.Props.Random
import Verif.Props.Params
import Verif.Props.BasisExt
import Verif.Props.ModDownNTT
import Verif.Lemmas.MulRelin
import Verif.Lemmas.Noise
import Verif.Lemmas.HeapOps
import Verif.Props.Heap
import Verif.Props.HeapOps
import Verif.Props.HeapEval
import Verif.Props.HeapInPlace
import Verif.Lemmas.HeapNewSim
import Verif.Lemmas.HeapBfvSim
import Verif.Lemmas.HeapCryptSim
import Verif.Props.HeapRefine
import Verif.Props.HeapRefineMul
import Verif.Props.HeapProg
import Verif.Props.HeapProgExample
import Verif.Props.HeapCirc
import Verif.Props.HeapCrypt
import Verif.Props.HeapClient
import Verif.Props.Mul
import Verif.Props.Rotate
import Verif.Props.RotateAll
import Verif.Props.AddSub
import Verif.Props.Const
import Verif.Props.CkksOps
import Verif.Props.MulNew
import Verif.Props.KeyGen
import Verif.Props.Crypt
import Verif.Props.HeapSum
import Verif.Props.HeapSumCkks
import Verif.Props.HeapLevel
import Verif.Props.HeapExample
import Verif.Props.BitRev
import Verif.Props.Utils
import Verif.Props.BfvKeyGen
import Verif.Props.BfvMul
import Verif.Props.BfvSem
import Verif.Props.BfvExample
import Verif.Props.BfvProg
import Verif.Props.BfvProgExample
import Verif.Model.BfvSetup
import Verif.Props.BfvSetup
import Verif.Lemmas.Keep
import Verif.Lemmas.BfvKeep
import Verif.Lemmas.Slots
import Verif.Spec.Ckks
import Verif.Props.CkksSem
import Verif.Props.CkksConst
import Verif.Props.CkksCrypt
import Verif.Props.CkksProg
import Verif.Props.Sessions
import Verif.Props.SessionsExample
import Verif.Model.Setup
import Verif.Model.Alloc
import Verif.Props.CkksSetup
import Verif.Props.CkksExample
import Verif.Model.Cnn
import Verif.Spec.Cnn
import Verif.Spec.PN14
import Verif.Props.Cnn
import Verif.Model.CnnPack
import Verif.Lemmas.CnnPack
import Verif.Props.CnnNet
import Verif.Props.CnnTop
import Verif.Model.CnnClient
import Verif.Props.CnnClient
import Verif.Props.CnnBounds
import Verif.Props.CnnPN14
import Verif.Base.Rows
import Verif.Base.PrimeList
import Verif.Model.Literal
import Verif.Spec.Literals
import Verif.Props.Literal
import Verif.Props.Literals
import Verif.Props.BfvBudget
import Verif.Props.BfvLiterals
import Verif.Model.HeapEval
import Verif.Model.HeapCrypt
import Verif.Lemmas.HeapEvalOk
import Verif.Lemmas.HeapSim
import Verif.Lemmas.HeapEvalSim
import Verif.Model.CkksSetup
import Verif.Spec.CkksBudget
import Verif.Props.CkksClient
import Verif.Props.CkksBudget
import Verif.Props.CkksLiterals
import Verif.Props.CkksShipped
import Verif.Props.CkksShippedExample
import Verif.Model.HeapKeys
import Verif.Model.HeapSession
import Verif.Lemmas.HeapKeys
import Verif.Lemmas.HeapKeySim
import Verif.Props.HeapKeys
import Verif.Props.HeapKeyGen
import Verif.Props.HeapBfvKeyGen
import Verif.Props.HeapSession
import Verif.Props.HeapSessionRuns
import Verif.Model.Conc
import Verif.Lemmas.Conc
import Verif.Lemmas.ConcExt
import Verif.Props.Conc
import Verif.Props.ConcDown
import Verif.Props.Laws
import Verif.Spec.Rename
import Verif.Lemmas.Rename
import Verif.Props.Rename
import Verif.Props.RenameCkks
import Verif.Props.RenameBfv
import Verif.Props.RenameKeys
import Verif.Props.RenameProg
import Verif.Props.RenameClient
import Verif.Spec.Batch
import Verif.Lemmas.Batch
import Verif.Props.Batch
import Verif.Props.BatchLiterals
import Verif.Lemmas.Sparse
import Verif.Props.Sparse
import Verif.Model.HeapTrace
import Verif.Lemmas.HeapTrace
import Verif.Lemmas.HeapTraceOk
import Verif.Lemmas.HeapTraceEval
import Verif.Lemmas.HeapTracePool
import Verif.Props.HeapTrace
import Verif.Props.HeapTraceExample
import Verif.Props.HeapBfvProg
import Verif.Props.HeapBfvProgExample
import Verif.Model.Shared
import Verif.Props.Shared
import Verif.Props.SharedRace
import Verif.Props.SharedExample
import Verif.Model.BShared
import Verif.Props.BShared
import Verif.Props.BSharedRace
import Verif.Props.MulPlain
import Verif.Model.Stats
import Verif.Spec.Stats
import Verif.Props.Stats
import Verif.Props.EncryptInto
import Verif.Props.Rewrite
import Verif.Model.HeapKeyTrace
import Verif.Lemmas.HeapKeyTrace
import Verif.Props.HeapKeyTrace
import Verif.Props.KeyHistory
import Verif.Model.HeapCrsTrace
import Verif.Props.HeapCrsTrace
