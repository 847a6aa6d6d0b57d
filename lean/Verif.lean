import Verif.Props.Cuckoo
import Verif.Props.GF128
import Verif.Props.GGM
import Verif.Props.Leaves
import Verif.Props.Gilboa
import Verif.Props.MPFSS
import Verif.Props.Net
import Verif.Props.RNG
import Verif.Props.ROT
import Verif.Props.Scalar
import Verif.Props.SPFSS
import Verif.Props.VOLE
import Verif.Props.VOLELocal
import Verif.Props.VOLELocal2
import Verif.Props.VOLELocal3
import Verif.Props.VOLELocal4
import Verif.Props.Security
import Verif.Model.Create
import Verif.Props.Create
import Verif.Model.Promotion
import Verif.Props.Promotion
import Verif.Model.Parallel
import Verif.Proofs.Parallel
import Verif.Props.Parallel
import Verif.Spec.Errors
import Verif.Proofs.Errors
import Verif.Props.Errors
import Verif.Spec.Generator
import Verif.Proofs.ZeroCode
import Verif.Proofs.ZeroCode2
import Verif.Proofs.ZeroCode3
import Verif.Props.ZeroCode
import Verif.Spec.Hiding
import Verif.Proofs.Hiding
import Verif.Props.Hiding
import Verif.Props.Accepted
import Verif.Model.Contexts
import Verif.Props.Contexts
import Verif.Model.Buckets
import Verif.Proofs.Erf
import Verif.Proofs.Buckets
import Verif.Props.Buckets
import Verif.Model.Formulas
import Verif.Props.Formulas
import Verif.Model.Tests
import Verif.Props.Tests
import Verif.Props.Tests2
import Verif.Model.Clients
import Verif.Props.Clients
import Verif.Proofs.Oracle
import Verif.Spec.Ciphers
import Verif.Proofs.Words
import Verif.Props.Uniform
import Verif.Model.Distribution
import Verif.Spec.Distribution
import Verif.Proofs.Dist1
import Verif.Proofs.Dist2
import Verif.Props.Sampling
import Verif.Spec.AES
import Verif.Proofs.Packed
import Verif.Proofs.AES1
import Verif.Proofs.AES2
import Verif.Props.AES
import Verif.Model.RandomTests
import Verif.Proofs.Tail
import Verif.Props.RandomTests
import Verif.Spec.Traffic
import Verif.Proofs.Traffic
import Verif.Proofs.Traffic2
import Verif.Proofs.Traffic3
import Verif.Proofs.Traffic4
import Verif.Proofs.Traffic5
import Verif.Props.Traffic
import Verif.Props.Permutations
import Verif.Proofs.Collide
import Verif.Props.Failure
import Verif.Props.FailureVOLE
import Verif.Spec.Several
import Verif.Props.Several
import Verif.Spec.Peer
import Verif.Proofs.Peer
import Verif.Props.Peer
import Verif.Props.PeerVOLE
import Verif.Spec.PeerVOLE
import Verif.Proofs.PeerVOLE
import Verif.Props.PeerRuns
import Verif.Props.PeerLife
import Verif.Props.PeerShort
import Verif.Props.Update
