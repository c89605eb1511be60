import Verif.Model.Basic
import Verif.Model.Transcript
import Verif.Model.MathUtils
import Verif.Model.Matrix
import Verif.Model.GramSchmidt
import Verif.Model.IpaNoZk
import Verif.Model.IpaAlmZk
import Verif.Model.QesaInner
import Verif.Model.Copy
import Verif.Model.Lmpa
import Verif.Model.Tests
import Verif.Spec
import Verif.SpecIpa
import Verif.Toy
import Verif.Proofs.Lists
import Verif.Proofs.IpaNoZk
import Verif.Proofs.IpaVerify
import Verif.Proofs.IpaCreate
import Verif.Props.Ipa
import Verif.SpecAlm
import Verif.Proofs.Matrix
import Verif.Proofs.GramSchmidt
import Verif.Proofs.AlmZk
import Verif.Props.Helpers
import Verif.Props.GramSchmidt
import Verif.Props.Challenge
import Verif.Props.AlmZk
import Verif.SpecQesa
import Verif.Proofs.Qesa
import Verif.Props.Qesa
import Verif.SpecCopy
import Verif.Proofs.Copy
import Verif.Props.Copy
import Verif.SpecLmpa
import Verif.Proofs.Lmpa
import Verif.Props.Lmpa
import Verif.Proofs.Halts
import Verif.Props.LmpaHalts
import Verif.Props.SimpleZk
import Verif.Proofs.LmpaK
import Verif.Props.LmpaK
import Verif.SpecSound
import Verif.Props.IpaSound
import Verif.Props.IpaBinding
import Verif.SpecQesaSound
import Verif.Props.QesaSound
import Verif.Props.LmpaSound
import Verif.Props.HonestTrees
import Verif.SpecProver
import Verif.Proofs.Counting
import Verif.Props.Knowledge
import Verif.SpecOracle
import Verif.SpecAgm
import Verif.Proofs.Oracle
import Verif.Proofs.Machine
import Verif.Proofs.FiatShamir
import Verif.Proofs.ArgMachine
import Verif.Proofs.FsCore
import Verif.Proofs.QesaMachine
import Verif.Props.RandomOracle
import Verif.Props.QesaOracle
import Verif.SpecCopyAgm
import Verif.Proofs.CopyMachine
import Verif.Props.CopyOracle
import Verif.SpecLmpaAgm
import Verif.Proofs.LmpaMachine
import Verif.Props.LmpaOracle
import Verif.Proofs.IpaScalars
import Verif.Props.AlmLeak
import Verif.Props.Hiding
import Verif.Proofs.Masks
import Verif.SpecTape
import Verif.Props.Completeness
import Verif.Proofs.QesaRun
import Verif.Props.QesaCompleteness
import Verif.Props.TestMapping
import Verif.Props.TestLmpa
import Verif.Props.LmpaKCompleteness
import Verif.SpecSim
import Verif.Props.SimpleSim
import Verif.Props.TestIpa
import Verif.Props.TestQesa
import Verif.Props.FloatTests
import Verif.Props.AlmShapes
import Verif.Props.LmpaShapes
import Verif.Props.LmpaKShapes
import Verif.Props.QesaShapes
import Verif.Props.Ristretto
import Verif.Model.Release
import Verif.SpecRelease
import Verif.Proofs.Release
import Verif.Props.Release
import Verif.SpecQesaAny
import Verif.Proofs.QesaAny
import Verif.Props.QesaAny
import Verif.SpecUnique
import Verif.Props.Unique
import Verif.Proofs.CopyAny
import Verif.Proofs.CopyDrift
import Verif.Props.CopyAny
import Verif.SpecFork
import Verif.Proofs.Fork
import Verif.Proofs.IpaFork
import Verif.Props.Fork
import Verif.Proofs.QesaFork
import Verif.Proofs.LmpaFork
import Verif.Props.ForkQesa
import Verif.Props.ForkCopy
import Verif.Props.ForkLmpa
import Verif.Props.ForkAdaptive
import Verif.Props.ForkAdaptive2
import Verif.SpecExtract
import Verif.Proofs.Extract
import Verif.Props.Extract
import Verif.SpecReduction
import Verif.Props.Reduction
import Verif.Props.ReductionCopy
import Verif.Props.Tight
import Verif.Props.TightIpa
import Verif.Props.TightAlm
import Verif.Props.Grinding
import Verif.Props.Sizes
import Verif.SpecSession
import Verif.Props.Session
import Verif.Props.Wrong
import Verif.Props.Locality
import Verif.Props.Replay
import Verif.SpecJobs
import Verif.Proofs.After
import Verif.Props.Jobs
import Verif.SpecLeftRight
import Verif.Props.LeftRight
import Verif.SpecSimSession
import Verif.Props.SimSession
import Verif.SpecSlots
import Verif.Props.Slots
import Verif.Props.GeneralForgery
import Verif.SpecAdversary
import Verif.Props.Adversary
import Verif.SpecExplain
import Verif.Props.Explain
import Verif.Props.SessionExtract
import Verif.Props.SessionLevels
import Verif.SpecBreak
import Verif.Props.SessionReduction
import Verif.Props.HonestLevels
import Verif.Props.SessionAll
