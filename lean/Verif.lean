import Verif.Proof.Bytes
import Verif.Model.EncCtx
import Verif.Model.Alg
import Verif.Proof.EncCtx
import Verif.Props.EncCtx
import Verif.Props.Alg
import Verif.Model.Header
import Verif.Proof.Header
import Verif.Proof.HeaderWrite
import Verif.Props.Header
import Verif.Model.Frame
import Verif.Spec.Frame
import Verif.Proof.Frame
import Verif.Proof.FrameWrite
import Verif.Props.Frame
import Verif.Model.Kdf
import Verif.Model.Cipher
import Verif.Model.Session
import Verif.Spec.Crypto
import Verif.Proof.Crypto
import Verif.Props.Crypto
import Verif.Proof.SessionEnc
import Verif.Proof.SessionBody
import Verif.Proof.SessionDec
import Verif.Proof.SessionLoop
import Verif.Proof.SessionProcess
import Verif.Spec.Session
import Verif.Proof.SessionHist
import Verif.Spec.SessionExample
import Verif.Proof.SessionFacts
import Verif.Proof.SessionCongr
import Verif.Props.Session
import Verif.Props.SessionSafety
import Verif.Props.SessionAuth
import Verif.Proof.SessionDet
import Verif.Props.SessionSchedule
import Verif.Proof.SessionProgress
import Verif.Props.SessionProgress
import Verif.Model.Keyring
import Verif.Model.DefaultCmm
import Verif.Spec.Keyring
import Verif.Spec.KeyringExample
import Verif.Proof.Keyring
import Verif.Proof.RawKeyring
import Verif.Props.Keyring
import Verif.Props.RawKeyring
import Verif.Props.DefaultCmm
import Verif.Model.LocalCache
import Verif.Spec.LocalCache
import Verif.Proof.LocalCache
import Verif.Proof.LocalCacheOps
import Verif.Props.LocalCache
import Verif.Model.CachingCmm
import Verif.Spec.CachingCmm
import Verif.Proof.CachingCmm
import Verif.Proof.CachingCmmInv
import Verif.Proof.CacheId
import Verif.Props.CachingCmm
import Verif.Props.CachingCmmMore
import Verif.Model.CacheConc
import Verif.Spec.CacheConc
import Verif.Proof.CacheConc
import Verif.Props.CacheConc
import Verif.Model.CmmConc
import Verif.Spec.CmmConc
import Verif.Proof.CmmConc
import Verif.Proof.CmmConcStep
import Verif.Props.CmmConc
import Verif.Model.Arn
import Verif.Model.Kms
import Verif.Spec.Kms
import Verif.Spec.KmsExample
import Verif.Proof.Arn
import Verif.Proof.Kms
import Verif.Props.Arn
import Verif.Props.Kms
import Verif.Props.KmsRoundTrip
import Verif.Proof.SessionDeclared
import Verif.Props.SessionDeclared
import Verif.Props.SessionAsked
import Verif.Props.SessionWrites
import Verif.Spec.SessionComplete
import Verif.Proof.SessionComplete
import Verif.Props.SessionComplete
import Verif.Model.Signature
import Verif.Spec.Signature
import Verif.Proof.Signature
import Verif.Props.Signature
import Verif.Model.Stack
import Verif.Spec.Stack
import Verif.Proof.Stack
import Verif.Props.Stack
import Verif.Spec.StackWrites
import Verif.Proof.StackWrites
import Verif.Props.StackWrites
import Verif.Proof.SessionRead
import Verif.Spec.SessionAccepts
import Verif.Proof.SessionAccepts
import Verif.Props.SessionAccepts
import Verif.Model.Lifetime
import Verif.Spec.Lifetime
import Verif.Spec.LifetimeExample
import Verif.Proof.Lifetime
import Verif.Proof.LifetimeCalls
import Verif.Props.Lifetime
import Verif.Spec.SessionErrors
import Verif.Proof.HeaderErrors
import Verif.Proof.SessionErrors
import Verif.Proof.SessionRejects
import Verif.Proof.SessionRejects2
import Verif.Props.SessionErrors
import Verif.Spec.KeyringErrors
import Verif.Proof.KeyringErrors
import Verif.Props.KeyringErrors
import Verif.Spec.EncryptErrors
import Verif.Proof.EncryptErrors
import Verif.Props.EncryptErrors
import Verif.Spec.CmmErrors
import Verif.Props.CmmErrors
import Verif.Spec.KmsErrors
import Verif.Proof.KmsErrors
import Verif.Props.KmsErrors
import Verif.Model.CachedStack
import Verif.Spec.CachedStack
import Verif.Proof.CachedStack
import Verif.Props.CachedStack
import Verif.Model.KmsClient
import Verif.Spec.KmsClient
import Verif.Proof.KmsClient
import Verif.Proof.KmsClientGood
import Verif.Proof.KmsClientInv
import Verif.Proof.KmsClientSeq
import Verif.Proof.KmsClientRep
import Verif.Proof.KmsClientPlay
import Verif.Props.KmsClient
import Verif.Model.Secrets
import Verif.Spec.Secrets
import Verif.Proof.Secrets
import Verif.Props.Secrets
import Verif.Model.KeyringTree
import Verif.Spec.AnyStack
import Verif.Proof.AnyStack
import Verif.Props.AnyStack
import Verif.Spec.KeyringTree
import Verif.Proof.KeyringTree
import Verif.Props.KeyringTree
import Verif.Spec.SignatureErrors
import Verif.Proof.SignatureErrors
import Verif.Props.SignatureErrors
import Verif.Spec.CacheUsage
import Verif.Proof.CacheUsage
import Verif.Props.CacheUsage
import Verif.Model.Memory
import Verif.Spec.Memory
import Verif.Proof.Memory
import Verif.Props.Memory
import Verif.Spec.Trace
import Verif.Proof.Trace
import Verif.Proof.SessionTrace
import Verif.Props.Trace
import Verif.Model.CmmConcDec
import Verif.Spec.CmmConcDec
import Verif.Proof.CmmConcDec
import Verif.Proof.CmmConcDecHeld
import Verif.Props.CmmConcDec
import Verif.Model.AnyCache
import Verif.Spec.AnyCache
import Verif.Proof.AnyCache
import Verif.Proof.AnyCacheCalls
import Verif.Proof.AnyCacheLimits
import Verif.Proof.AnyCacheSums
import Verif.Proof.AnyCacheLocal
import Verif.Props.AnyCache
import Verif.Props.AnyCacheExamples
import Verif.Spec.ThreadUsage
import Verif.Proof.ThreadUsage
import Verif.Props.ThreadUsage
import Verif.Spec.LocalRuns
import Verif.Proof.LocalRunsOps
import Verif.Proof.LocalRunsBooks
import Verif.Proof.LocalRuns
import Verif.Proof.LocalRunsKeeps
import Verif.Proof.LocalRunsSettle
import Verif.Proof.LocalRunsHeld
import Verif.Props.LocalRuns
import Verif.Props.LocalRunsRace
import Verif.Spec.ThreadStack
import Verif.Proof.ThreadStack
import Verif.Props.ThreadStack
import Verif.Props.ThreadStackExamples
import Verif.Spec.LinearCache
import Verif.Proof.LinearCache
import Verif.Props.LinearCache
import Verif.Spec.Integrity
import Verif.Proof.Integrity
import Verif.Props.Integrity
import Verif.Spec.OnePlaintext
import Verif.Props.OnePlaintext
import Verif.Spec.Signers
import Verif.Props.Signers
import Verif.Spec.WrapIntegrity
import Verif.Proof.WrapIntegrity
import Verif.Props.WrapIntegrity
import Verif.Props.WrapIntegrityKms
import Verif.Spec.CachedIntegrity
import Verif.Props.CachedIntegrity
import Verif.Props.CachedIntegrityKms
import Verif.Model.Containers
import Verif.Spec.Containers
import Verif.Props.Containers
import Verif.Model.Compare
import Verif.Spec.Compare
import Verif.Props.Compare
import Verif.Spec.Blind
import Verif.Props.Blind
import Verif.Spec.Rekey
import Verif.Props.Rekey
import Verif.Model.MemoryOrder
import Verif.Spec.MemoryOrder
import Verif.Proof.MemoryOrder
import Verif.Proof.MemoryOrderFin
import Verif.Props.MemoryOrder
import Verif.Model.CacheFields
import Verif.Spec.CacheFields
import Verif.Props.CacheFields
import Verif.Spec.Mask
import Verif.Props.Mask
import Verif.Spec.Rewrap
import Verif.Proof.Rewrap
import Verif.Props.Rewrap
import Verif.Spec.CacheSwap
import Verif.Proof.CacheSwap
import Verif.Props.CacheSwap
import Verif.Spec.CacheSwapThreads
import Verif.Proof.CacheSwapThreads
import Verif.Props.CacheSwapThreads
import Verif.Spec.CmmAlone
import Verif.Proof.CmmAlone
import Verif.Proof.CmmAloneFault
import Verif.Props.CmmAlone
