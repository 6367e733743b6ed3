import Verif.Props.RoundTrip
import Verif.Proofs.Headers
import Verif.Proofs.Reject
import Verif.Proofs.Asym
import Verif.Proofs.Registry
import Verif.Spec.Demo
import Verif.Proofs.Api
import Verif.Proofs.Mono
import Verif.Model.Api
import Verif.Spec.Yields
import Verif.Proofs.UniverseLaw
import Verif.Proofs.CodecLaw
import Verif.Proofs.CodecRel
import Verif.Proofs.Step
import Verif.Proofs.Codec
import Verif.Proofs.Virtual
import Verif.Spec.BytesOnly
import Verif.Spec.Universe
import Verif.Model.Universe
import Verif.Proofs.ContainerLaws
import Verif.Proofs.ElemLaws
import Verif.Proofs.Dispatch
import Verif.Proofs.Laws
import Verif.Proofs.Bytes
import Verif.Model.Containers
import Verif.Spec.Visits
import Verif.Spec.DemoAsym
import Verif.Proofs.Visits
import Verif.Props.Headers
import Verif.Props.Containers
import Verif.Spec.Shape
import Verif.Proofs.Top
import Verif.Proofs.Merge
import Verif.Proofs.Shape
import Verif.Proofs.Valueless
import Verif.Proofs.VecAppend
import Verif.Props.InPlace
import Verif.Spec.Trace
import Verif.Proofs.Frame
import Verif.Proofs.Trace
import Verif.Props.Trace
import Verif.Proofs.Ends
import Verif.Proofs.Poly
import Verif.Proofs.RegOps
import Verif.Props.Virtual
import Verif.Model.Reconstruct
import Verif.Model.Lifetime
import Verif.Spec.Ledger
import Verif.Spec.UserFn
import Verif.Proofs.UserFn
import Verif.Props.Lifetime
import Verif.Props.Footprint
import Verif.Proofs.Stable
import Verif.Spec.DemoPlain
import Verif.Props.Format
import Verif.Model.File
import Verif.Spec.Crash
import Verif.Spec.Ending
import Verif.Proofs.File
import Verif.Proofs.FileEnc
import Verif.Props.File
import Verif.Spec.Formed
import Verif.Spec.DemoFormed
import Verif.Proofs.Safe
import Verif.Proofs.SafeUniverse
import Verif.Props.Safety
import Verif.Model.View
import Verif.Spec.View
import Verif.Proofs.ViewTraverse
import Verif.Proofs.View
import Verif.Proofs.ViewTop
import Verif.Props.Kokkos
import Verif.Props.KokkosConst
import Verif.Props.ViewEquality
import Verif.Model.KMap
import Verif.Spec.KMap
import Verif.Proofs.KMap
import Verif.Props.KokkosMap
import Verif.Model.Pointers
import Verif.Spec.Pointers
import Verif.Proofs.Pointers
import Verif.Proofs.Dangling
import Verif.Props.Pointers
import Verif.Spec.Portable
import Verif.Proofs.Portable
import Verif.Proofs.Post
import Verif.Props.Portable
import Verif.Model.ViewMore
import Verif.Spec.ViewMore
import Verif.Spec.RoundTrips
import Verif.Proofs.Stops
import Verif.Proofs.ViewMore
import Verif.Proofs.ViewPart
import Verif.Proofs.ViewMoreTop
import Verif.Props.KokkosMore
import Verif.Model.Select
import Verif.Spec.Select
import Verif.Props.Select
import Verif.Model.Hierarchy
import Verif.Spec.Hierarchy
import Verif.Proofs.Hierarchy
import Verif.Props.Hierarchy
import Verif.Model.UserBody
import Verif.Spec.UserBody
import Verif.Proofs.UserBody
import Verif.Props.UserBody
import Verif.Model.Shared
import Verif.Spec.Shared
import Verif.Proofs.Shared
import Verif.Proofs.SharedTop
import Verif.Props.Shared
import Verif.Props.FullStream
import Verif.Model.Custom
import Verif.Spec.Custom
import Verif.Proofs.Custom
import Verif.Props.Custom
import Verif.Model.Compose
import Verif.Spec.Compose
import Verif.Proofs.Compose
import Verif.Proofs.ComposeMore
import Verif.Proofs.ComposePoly
import Verif.Proofs.ComposeAll
import Verif.Proofs.ComposeApi
import Verif.Props.Compose
import Verif.Props.ComposeAgree
import Verif.Spec.ComposeFormed
import Verif.Proofs.SafeCompose
import Verif.Proofs.SafeView
import Verif.Props.ComposeSafety
import Verif.Props.ComposeApi
import Verif.Model.Program
import Verif.Proofs.Program
import Verif.Props.Program
import Verif.Proofs.ProgramChecked
import Verif.Props.ProgramChecked
import Verif.Model.Adaptors
import Verif.Model.Recursive
import Verif.Spec.Counts
import Verif.Proofs.Counts
import Verif.Proofs.CountsMore
import Verif.Props.Counts
import Verif.Props.Recursive
import Verif.Props.RecursivePoly
import Verif.Proofs.RecursivePoly
import Verif.Props.Owners
import Verif.Spec.World
import Verif.Spec.Generations
import Verif.Proofs.Lasting
import Verif.Props.Generations
import Verif.Model.ViewShared
import Verif.Spec.ViewShared
import Verif.Proofs.ViewShared
import Verif.Props.ViewShared

import Verif.Spec.Failure
import Verif.Proofs.Failure
import Verif.Props.Exceptions
import Verif.Model.Unwound
import Verif.Proofs.Unwound
import Verif.Proofs.UnwoundUniverse
import Verif.Props.Unwound
import Verif.Spec.Between
import Verif.Proofs.Torn
import Verif.Proofs.TornUniverse
import Verif.Proofs.Delivered
import Verif.Proofs.DeliveredLists
import Verif.Proofs.DeliveredVector
import Verif.Proofs.DeliveredSets
import Verif.Proofs.DeliveredTuple
import Verif.Proofs.DeliveredChain
import Verif.Props.Torn
import Verif.Props.TornLists
import Verif.Props.TornVectors
import Verif.Props.TornArrays
import Verif.Props.TornSets
import Verif.Props.TornTuples
import Verif.Props.TornHierarchies
import Verif.Spec.Over
import Verif.Proofs.Over
import Verif.Props.Over
import Verif.Props.OverOwners
import Verif.Spec.Builds
import Verif.Proofs.Builds
import Verif.Props.Builds
import Verif.Spec.Weight
import Verif.Proofs.Weight
import Verif.Proofs.WeightUniverse
import Verif.Props.Weight
import Verif.Spec.Depth
import Verif.Spec.DemoList
import Verif.Proofs.Depth
import Verif.Props.Depth
import Verif.Spec.SameReading
import Verif.Proofs.Media
import Verif.Props.Media
import Verif.Props.BuildsFile
import Verif.Spec.SameButCaps
import Verif.Proofs.Mirror
import Verif.Proofs.MirrorContainers
import Verif.Proofs.MirrorTypes
import Verif.Props.Mirror
import Verif.Tests.Basic
import Verif.Tests.Sizer
import Verif.Tests.Footprinter
import Verif.Tests.ErrorChecking
import Verif.Tests.RoundTrips
import Verif.Tests.Virtual
