import Verif.Lemmas.Answer
import Verif.Lemmas.ArmCoord
import Verif.Lemmas.Atomic
import Verif.Lemmas.Blind
import Verif.Lemmas.BlindApi
import Verif.Lemmas.BlindCaches
import Verif.Lemmas.BlindCalls
import Verif.Lemmas.Builders
import Verif.Lemmas.Calls
import Verif.Lemmas.Carried
import Verif.Lemmas.Clone
import Verif.Lemmas.Cost
import Verif.Lemmas.CostCalls
import Verif.Lemmas.Deadlock
import Verif.Lemmas.Deriv
import Verif.Lemmas.Downward
import Verif.Lemmas.Eased
import Verif.Lemmas.Finite
import Verif.Lemmas.Fk
import Verif.Lemmas.Flipped
import Verif.Lemmas.FlippedCalls
import Verif.Lemmas.Halts
import Verif.Lemmas.Hung
import Verif.Lemmas.Idx
import Verif.Lemmas.Ik
import Verif.Lemmas.Invariant
import Verif.Lemmas.Jammed
import Verif.Lemmas.Keep
import Verif.Lemmas.Labels
import Verif.Lemmas.LastWrite
import Verif.Lemmas.LinAlg
import Verif.Lemmas.Locks
import Verif.Lemmas.Loose
import Verif.Lemmas.Mirror
import Verif.Lemmas.MirrorCalls
import Verif.Lemmas.Newton
import Verif.Lemmas.Orderless
import Verif.Lemmas.Own
import Verif.Lemmas.PathDeriv
import Verif.Lemmas.Poison
import Verif.Lemmas.RealGeom
import Verif.Lemmas.Recast
import Verif.Lemmas.RecastCalls
import Verif.Lemmas.Region
import Verif.Lemmas.Rely
import Verif.Lemmas.Round
import Verif.Lemmas.Run
import Verif.Lemmas.Safe
import Verif.Lemmas.Scaled
import Verif.Lemmas.ScaledCalls
import Verif.Lemmas.Sched
import Verif.Lemmas.SetAll
import Verif.Lemmas.SetPos
import Verif.Lemmas.Shared
import Verif.Lemmas.SharedCalls
import Verif.Lemmas.Signed
import Verif.Lemmas.Smooth
import Verif.Lemmas.Tree
import Verif.Lemmas.Unwind
import Verif.Lemmas.UpTo
import Verif.Lemmas.Urdf
import Verif.Lemmas.Watch
import Verif.Lemmas.Wound
import Verif.Model.Chain
import Verif.Model.Errors
import Verif.Model.Funcs
import Verif.Model.Geom
import Verif.Model.Ik
import Verif.Model.Iter
import Verif.Model.Joint
import Verif.Model.Link
import Verif.Model.Memory
import Verif.Model.Node
import Verif.Model.Poison
import Verif.Model.Prog
import Verif.Model.RealScalar
import Verif.Model.Release
import Verif.Model.RoundScalar
import Verif.Model.Scalar
import Verif.Model.Serde
import Verif.Model.Urdf
import Verif.Props.Answers
import Verif.Props.Atomic
import Verif.Props.Builder
import Verif.Props.Builders
import Verif.Props.BuildersEx
import Verif.Props.Caches
import Verif.Props.Cargo
import Verif.Props.Cases
import Verif.Props.CasesMore
import Verif.Props.ChainSet
import Verif.Props.Clone
import Verif.Props.Com
import Verif.Props.Concurrency
import Verif.Props.Coords
import Verif.Props.CoordsEx
import Verif.Props.Cost
import Verif.Props.Crash
import Verif.Props.Display
import Verif.Props.Down
import Verif.Props.Drops
import Verif.Props.EndVelocity
import Verif.Props.ErrorText
import Verif.Props.Fk
import Verif.Props.Flip
import Verif.Props.FlipEx
import Verif.Props.Frame
import Verif.Props.FrameEx
import Verif.Props.Frozen
import Verif.Props.FrozenEx
import Verif.Props.Geom
import Verif.Props.Guards
import Verif.Props.Ik
import Verif.Props.IkApi
import Verif.Props.IkConverge
import Verif.Props.IkEx
import Verif.Props.IkLocal
import Verif.Props.IkLocalEx
import Verif.Props.IkStep
import Verif.Props.Jacobian
import Verif.Props.JacobianMimic
import Verif.Props.Jammed
import Verif.Props.JointSet
import Verif.Props.Kinematics
import Verif.Props.KinematicsEx
import Verif.Props.Labels
import Verif.Props.LastWrite
import Verif.Props.Limits
import Verif.Props.LinkVel
import Verif.Props.Links
import Verif.Props.Loop
import Verif.Props.Loose
import Verif.Props.Memory
import Verif.Props.MemoryApi
import Verif.Props.Mimic
import Verif.Props.MimicShared
import Verif.Props.Mount
import Verif.Props.MountEx
import Verif.Props.NodeApi
import Verif.Props.Nullspace
import Verif.Props.OtherNodes
import Verif.Props.OtherNodesEx
import Verif.Props.Poison
import Verif.Props.Ranges
import Verif.Props.Reach
import Verif.Props.Region
import Verif.Props.Rehang
import Verif.Props.Release
import Verif.Props.ReleaseEx
import Verif.Props.Round
import Verif.Props.RoundJacobian
import Verif.Props.Serde
import Verif.Props.Serial
import Verif.Props.Shared
import Verif.Props.Siblings
import Verif.Props.SiblingsEx
import Verif.Props.Sign
import Verif.Props.Singular
import Verif.Props.SolveTotal
import Verif.Props.Static
import Verif.Props.Still
import Verif.Props.Sway
import Verif.Props.Swing
import Verif.Props.SwingEx
import Verif.Props.Target
import Verif.Props.TargetEx
import Verif.Props.Text
import Verif.Props.Topology
import Verif.Props.Total
import Verif.Props.Traverse
import Verif.Props.Tries
import Verif.Props.TriesEx
import Verif.Props.Units
import Verif.Props.UnitsEx
import Verif.Props.Unseen
import Verif.Props.UnseenEx
import Verif.Props.Urdf
import Verif.Props.UrdfFk
import Verif.Props.UrdfJoint
import Verif.Props.UrdfOrder
import Verif.Props.Watch
import Verif.Props.Wind
import Verif.Props.WindIk
import Verif.Spec.Answers
import Verif.Spec.Api
import Verif.Spec.Blind
import Verif.Spec.Builders
import Verif.Spec.Cargo
import Verif.Spec.Chain
import Verif.Spec.Coords
import Verif.Spec.Cost
import Verif.Spec.Down
import Verif.Spec.Fk
import Verif.Spec.Flip
import Verif.Spec.Frozen
import Verif.Spec.Geom
import Verif.Spec.Guards
import Verif.Spec.Ik
import Verif.Spec.Kinematics
import Verif.Spec.Labels
import Verif.Spec.LastWrite
import Verif.Spec.Limits
import Verif.Spec.Loop
import Verif.Spec.Loose
import Verif.Spec.Region
import Verif.Spec.Rehang
import Verif.Spec.Rename
import Verif.Spec.Serial
import Verif.Spec.Shared
import Verif.Spec.Siblings
import Verif.Spec.Sign
import Verif.Spec.Singular
import Verif.Spec.Sway
import Verif.Spec.Swing
import Verif.Spec.Target
import Verif.Spec.Tree
import Verif.Spec.Units
import Verif.Spec.Urdf
import Verif.Spec.Velocity
import Verif.Spec.Watch
import Verif.Spec.Wind
import Verif.Validation.RepoTests
