import Verif.Lemmas.Basic
import Verif.Lemmas.BitRev
import Verif.Lemmas.Builds
import Verif.Lemmas.ByteNet
import Verif.Lemmas.Cheat
import Verif.Lemmas.Coalition
import Verif.Lemmas.Count
import Verif.Lemmas.Curve
import Verif.Lemmas.Dfft
import Verif.Lemmas.Dft
import Verif.Lemmas.Dies
import Verif.Lemmas.Evil
import Verif.Lemmas.EvilProof
import Verif.Lemmas.ExtWit
import Verif.Lemmas.Factor
import Verif.Lemmas.Fft
import Verif.Lemmas.Frame
import Verif.Lemmas.Fresh
import Verif.Lemmas.Gao
import Verif.Lemmas.Groth16
import Verif.Lemmas.Groth16Math
import Verif.Lemmas.InFlight
import Verif.Lemmas.KingView
import Verif.Lemmas.Lagrange
import Verif.Lemmas.Latency
import Verif.Lemmas.LocalDfft
import Verif.Lemmas.LocalNet
import Verif.Lemmas.Lossy
import Verif.Lemmas.LossyProtocols
import Verif.Lemmas.Machine
import Verif.Lemmas.MachineDeal
import Verif.Lemmas.Masking
import Verif.Lemmas.Net
import Verif.Lemmas.OpenMsm
import Verif.Lemmas.Opened
import Verif.Lemmas.Pack
import Verif.Lemmas.Packets
import Verif.Lemmas.Pratt
import Verif.Lemmas.Prob
import Verif.Lemmas.Probe
import Verif.Lemmas.ProdNet
import Verif.Lemmas.Protocols
import Verif.Lemmas.Pss
import Verif.Lemmas.Qap
import Verif.Lemmas.Recorded
import Verif.Lemmas.Robust
import Verif.Lemmas.Rounds
import Verif.Lemmas.Routing
import Verif.Lemmas.Runs
import Verif.Lemmas.SameRuns
import Verif.Lemmas.SerNet
import Verif.Lemmas.Session
import Verif.Lemmas.Silent
import Verif.Lemmas.SilentNeg
import Verif.Lemmas.SilentProof
import Verif.Lemmas.SilentProtocols
import Verif.Lemmas.SilentRound
import Verif.Lemmas.SimRound
import Verif.Lemmas.SmallDomain
import Verif.Lemmas.Stall
import Verif.Lemmas.Trace
import Verif.Lemmas.Traffic
import Verif.Lemmas.Utils
import Verif.Lemmas.Volume
import Verif.Lemmas.Wire
import Verif.Model.Ark
import Verif.Model.Bench
import Verif.Model.ByteNet
import Verif.Model.Checks
import Verif.Model.Cost
import Verif.Model.Curves
import Verif.Model.Dfft
import Verif.Model.Example
import Verif.Model.Example17
import Verif.Model.Examples
import Verif.Model.Fields
import Verif.Model.Gao
import Verif.Model.LocalNet
import Verif.Model.Machine
import Verif.Model.Net
import Verif.Model.Pack
import Verif.Model.Packets
import Verif.Model.Prelude
import Verif.Model.ProdNet
import Verif.Model.ProdTests
import Verif.Model.Protocols
import Verif.Model.Prove
import Verif.Model.ProvingKey
import Verif.Model.Pss
import Verif.Model.Qap
import Verif.Model.Refs
import Verif.Model.Routing
import Verif.Model.SerNet
import Verif.Model.Tests
import Verif.Model.Tls
import Verif.Model.Utils
import Verif.Model.Wire
import Verif.Properties.Bench
import Verif.Properties.Bn254Cheats
import Verif.Properties.Bn254Zk
import Verif.Properties.Builds
import Verif.Properties.Bytes
import Verif.Properties.Causal
import Verif.Properties.Chance
import Verif.Properties.CheatOdds
import Verif.Properties.Cheaters
import Verif.Properties.Checks
import Verif.Properties.Coalition
import Verif.Properties.CoalitionH
import Verif.Properties.Cost
import Verif.Properties.Count
import Verif.Properties.Curves
import Verif.Properties.Curves377
import Verif.Properties.Dfft
import Verif.Properties.Dies
import Verif.Properties.Factor
import Verif.Properties.FactorH
import Verif.Properties.Fields
import Verif.Properties.Frame
import Verif.Properties.Fresh
import Verif.Properties.Gao
import Verif.Properties.Groth16
import Verif.Properties.Guess
import Verif.Properties.KingKnows
import Verif.Properties.KingView
import Verif.Properties.KingViewH
import Verif.Properties.KnownTape
import Verif.Properties.Latency
import Verif.Properties.LocalNet
import Verif.Properties.Lossy
import Verif.Properties.Machine
import Verif.Properties.Malicious
import Verif.Properties.MaskReuse
import Verif.Properties.Masking
import Verif.Properties.MsmBench
import Verif.Properties.Net
import Verif.Properties.Noticed
import Verif.Properties.OpenMsm
import Verif.Properties.Opening
import Verif.Properties.Options
import Verif.Properties.Pack
import Verif.Properties.Packets
import Verif.Properties.Probe
import Verif.Properties.ProdNet
import Verif.Properties.ProdTests
import Verif.Properties.Products
import Verif.Properties.Proof
import Verif.Properties.Protocols
import Verif.Properties.Pss
import Verif.Properties.Qap
import Verif.Properties.Refs
import Verif.Properties.Reuse
import Verif.Properties.RogueKing
import Verif.Properties.Routing
import Verif.Properties.Rushing
import Verif.Properties.Silent
import Verif.Properties.Simulator
import Verif.Properties.SmallDomain
import Verif.Properties.Statistical
import Verif.Properties.Streams
import Verif.Properties.Tests
import Verif.Properties.Threshold
import Verif.Properties.Tls
import Verif.Properties.Traffic
import Verif.Properties.Utils
import Verif.Properties.Volume
import Verif.Properties.Watcher
import Verif.Properties.WholeGroup
import Verif.Properties.Wire
import Verif.Properties.ZeroKnowledge
import Verif.Spec.Adversary
import Verif.Spec.BitRev
import Verif.Spec.Builds
import Verif.Spec.ByteNet
import Verif.Spec.Chance
import Verif.Spec.CheatOdds
import Verif.Spec.Cheaters
import Verif.Spec.Cost
import Verif.Spec.Count
import Verif.Spec.Dies
import Verif.Spec.Groth16
import Verif.Spec.Guess
import Verif.Spec.KingKnows
import Verif.Spec.KnownTape
import Verif.Spec.Latency
import Verif.Spec.Machine
import Verif.Spec.Net
import Verif.Spec.Noticed
import Verif.Spec.Opening
import Verif.Spec.Packets
import Verif.Spec.Poly
import Verif.Spec.ProbingKing
import Verif.Spec.R1cs
import Verif.Spec.Reuse
import Verif.Spec.RogueKing
import Verif.Spec.Rows
import Verif.Spec.Rushing
import Verif.Spec.Shared
import Verif.Spec.Sharing
import Verif.Spec.Silent
import Verif.Spec.Simulator
import Verif.Spec.Star
import Verif.Spec.Statistical
import Verif.Spec.Streams
import Verif.Spec.Trace
import Verif.Spec.Traffic
import Verif.Spec.View
import Verif.Spec.Volume
