import Verif.Props.Scalar
import Verif.Props.ScalarHeap
import Verif.Props.Field
import Verif.Lib.Group
import Verif.Props.Point
import Verif.Props.PointRandom
import Verif.Props.Schnorr
import Verif.Props.PublicKey
import Verif.Props.Csprng
import Verif.Props.Dss
import Verif.Props.DssExample
import Verif.Props.Layout
import Verif.Props.Guests
import Verif.Props.Dto
import Verif.Props.Firewall
import Verif.Model.Prot
import Verif.Spec.Prot
import Verif.Proofs.Prot
import Verif.Props.Prot
import Verif.Model.Dkg
import Verif.Proofs.ProtUser
import Verif.Proofs.Dkg
import Verif.Proofs.DkgSafe
import Verif.Props.Dkg
import Verif.Props.DkgExample
import Verif.Model.Tables
import Verif.Props.Tables
import Verif.Model.Registry
import Verif.Spec.Registry
import Verif.Proofs.Registry
import Verif.Proofs.Observers
import Verif.Props.Registry
import Verif.Model.Node
import Verif.Spec.Node
import Verif.Proofs.Node
import Verif.Proofs.NodeRun
import Verif.Proofs.NodeDrain
import Verif.Props.Node
import Verif.Model.NetCaller
import Verif.Spec.NetCaller
import Verif.Props.NetCaller
import Verif.Model.Signode
import Verif.Spec.Signode
import Verif.Props.Signode
import Verif.Proofs.ProtFollow
import Verif.Props.Signing
import Verif.Props.SigningExample
import Verif.Proofs.NodeShape
import Verif.Proofs.NodeOrigin
import Verif.Proofs.NodeCarry
import Verif.Proofs.ProtDoc
import Verif.Model.Program
import Verif.Spec.Program
import Verif.Proofs.Program
import Verif.Proofs.NodeSafe
import Verif.Proofs.ProgramSafe
import Verif.Props.RunId
import Verif.Props.Program
import Verif.Props.ProgramExample
import Verif.Proofs.NodeTimely
import Verif.Proofs.ProgramTime
import Verif.Props.ProgramTime
import Verif.Props.ProgramTimeExample
import Verif.Proofs.ProgramLive
import Verif.Proofs.ProgramQuiet
import Verif.Proofs.ProgramBound
import Verif.Proofs.ProgramStuck
import Verif.Props.ProgramAgree
import Verif.Props.ProgramAgreeExample
import Verif.Props.ProgramLive
import Verif.Props.ProgramLiveExample
import Verif.Proofs.ProtLog
import Verif.Proofs.Pin
import Verif.Proofs.ProtSched
import Verif.Proofs.ProgramPrompt
import Verif.Proofs.ProgramEnds
import Verif.Proofs.ProtSent
import Verif.Proofs.ProgramGiven
import Verif.Proofs.ProgramSent
import Verif.Props.ProgramPrompt
import Verif.Props.SigningSends
import Verif.Props.ProgramTogether
import Verif.Props.ProgramPromptExample
import Verif.Model.Start
import Verif.Props.Start
import Verif.Props.StartExample
import Verif.Model.KeyProgram
import Verif.Model.KeyStart
import Verif.Spec.KeyProgram
import Verif.Proofs.ProtStage
import Verif.Proofs.ProtHeld
import Verif.Proofs.KeyProgram
import Verif.Proofs.KeyMain
import Verif.Proofs.KeySafe
import Verif.Props.KeyProgram
import Verif.Props.KeyStart
import Verif.Props.KeyExample
import Verif.Model.Scan
import Verif.Spec.Scan
import Verif.Props.Scan
import Verif.Model.Files
import Verif.Props.Files
import Verif.Proofs.KeyLive
import Verif.Props.KeyLive
import Verif.Props.KeyLiveExample
import Verif.Model.Print
import Verif.Props.Print
import Verif.Props.PrintExample
import Verif.Model.Encoding
import Verif.Props.Encoding
import Verif.Model.PointHeap
import Verif.Model.Text
import Verif.Proofs.PointHeap
import Verif.Props.PointHeap
import Verif.Props.Text
import Verif.Proofs.KeyPrompt
import Verif.Proofs.DkgSent
import Verif.Proofs.KeyGiven
import Verif.Props.KeyPrompt
import Verif.Props.KeyPromptStart
import Verif.Props.KeyPromptExample
import Verif.Proofs.ProtTrail
import Verif.Spec.Generation
import Verif.Proofs.Generation
import Verif.Props.Generation
import Verif.Props.GenerationExample
import Verif.Spec.KeyTogether
import Verif.Proofs.Plausible
import Verif.Proofs.KeyTogether
import Verif.Props.KeyTogether
import Verif.Props.KeyTogetherStart
import Verif.Props.KeyTogetherExample
import Verif.Props.SignTogether
import Verif.Props.SignTogetherStart
import Verif.Props.SignTogetherExample
import Verif.Model.Network
import Verif.Spec.Network
import Verif.Proofs.Network
import Verif.Proofs.NetworkSent
import Verif.Proofs.NetworkCheck
import Verif.Props.NetworkTogether
import Verif.Props.NetworkExample
import Verif.Props.Quorum
import Verif.Props.KeyAbsent
import Verif.Props.QuorumExample
import Verif.Spec.Noise
import Verif.Props.Noise
import Verif.Props.NoiseExample
import Verif.Model.Kdats
import Verif.Spec.Kdats
import Verif.Proofs.Kdats
import Verif.Props.Kdats
import Verif.Props.KdatsExample
import Verif.Model.NetTime
import Verif.Spec.NetTime
import Verif.Proofs.NetTime
import Verif.Props.NetTime
import Verif.Props.NetTimeExample
import Verif.Spec.NetLoad
import Verif.Props.NetLoad
import Verif.Props.NetworkLoad
import Verif.Props.NetworkLoadExample
import Verif.Spec.NetBack
import Verif.Proofs.NetBack
import Verif.Props.NetBack
import Verif.Props.NetBackExample
import Verif.Model.Hostcomp
import Verif.Spec.Hostcomp
import Verif.Props.Hostcomp
import Verif.Model.Locks
import Verif.Spec.Locks
import Verif.Proofs.Locks
import Verif.Props.Locks
import Verif.Props.Memory
import Verif.Props.MemoryExample
import Verif.Model.TimeParse
import Verif.Spec.Time
import Verif.Proofs.TimeParse
import Verif.Props.TimeParse
import Verif.Spec.Keccak
import Verif.Props.RepoFiles
import Verif.Props.RepoTests
import Verif.Model.Rabin
import Verif.Spec.Rabin
import Verif.Proofs.Rabin
import Verif.Props.Rabin
import Verif.Props.RabinExample
import Verif.Spec.Hiding
import Verif.Proofs.Hiding
import Verif.Props.Hiding
import Verif.Spec.RabinOwn
import Verif.Proofs.RabinRun
import Verif.Proofs.RabinStage
import Verif.Props.RabinRun
import Verif.Props.RabinRunExample
import Verif.Props.RabinProgram
import Verif.Props.RabinProgramExample
import Verif.Props.RabinTogether
import Verif.Props.RabinTogetherExample
import Verif.Model.Hash
import Verif.Proofs.Hash
import Verif.Props.Hash
import Verif.Model.Console
import Verif.Spec.Console
import Verif.Proofs.Console
import Verif.Props.Console
import Verif.Props.ConsoleExample
import Verif.Props.ConsoleTogetherExample
import Verif.Props.Spoiler
import Verif.Props.SpoilerExample
import Verif.Props.Steer
import Verif.Props.SteerExample
import Verif.Spec.RabinHeard
import Verif.Proofs.RabinHeard
import Verif.Props.Heard
import Verif.Props.HeardExample
