import Verif.Model.Basic
import Verif.Model.NDArray
import Verif.Model.Float
import Verif.Model.Partitioner
import Verif.Spec.Partition
import Verif.Proofs.Float
import Verif.Proofs.RankExtent
import Verif.Proofs.Partition
import Verif.Props.Partition
import Verif.Spec.Cube
import Verif.Spec.BoundaryTypes
import Verif.Proofs.RankTransform
import Verif.Proofs.CubeBoundary
import Verif.Proofs.CubeGeometry
import Verif.Props.Boundary
import Verif.Model.BoundaryCache
import Verif.Proofs.BoundaryCache
import Verif.Props.BoundaryCache
import Verif.Model.Quantity
import Verif.Model.BoundarySlice
import Verif.Spec.Quantity
import Verif.Proofs.NDLemmas
import Verif.Proofs.BoundarySlice
import Verif.Props.BoundarySlice
import Verif.Spec.Rotate
import Verif.Proofs.Rotate
import Verif.Props.Rotate
import Verif.Spec.Views
import Verif.Proofs.Views
import Verif.Props.Views
import Verif.Props.Transpose
import Verif.Spec.Reorder
import Verif.Props.HaloTranspose
import Verif.Model.Net
import Verif.Model.Communicator
import Verif.Spec.Net
import Verif.Spec.Updates
import Verif.Proofs.Settle
import Verif.Proofs.ExecReal
import Verif.Props.Net
import Verif.Spec.Protocol
import Verif.Proofs.Protocol
import Verif.Proofs.ProtocolPlan
import Verif.Proofs.Boundaries
import Verif.Proofs.HaloGeometry
import Verif.Spec.Halo
import Verif.Spec.Bulk
import Verif.Proofs.Exchange
import Verif.Model.Program
import Verif.Proofs.Calls
import Verif.Proofs.Deliver
import Verif.Proofs.UpdatesSound
import Verif.Proofs.Bulk
import Verif.Proofs.HaloValue
import Verif.Spec.HaloResult
import Verif.Props.Halo
import Verif.Props.Idempotent
import Verif.Proofs.VectorValue
import Verif.Props.VectorHalo
import Verif.Spec.Sync
import Verif.Proofs.Edge
import Verif.Proofs.Sync
import Verif.Proofs.SyncValue
import Verif.Props.Sync
import Verif.Spec.Outstanding
import Verif.Proofs.Outstanding
import Verif.Props.Protocol
import Verif.Props.Deadlock
import Verif.Spec.Errors
import Verif.Proofs.Errors
import Verif.Props.Errors
import Verif.Props.ZeroCopy
import Verif.Model.Dict
import Verif.Proofs.Dict
import Verif.Model.Timer
import Verif.Spec.Timer
import Verif.Props.Timer
import Verif.Model.Buffer
import Verif.Props.Buffer
import Verif.Model.DummyComm
import Verif.Spec.DummyComm
import Verif.Props.DummyComm
import Verif.Model.CaptureStream
import Verif.Spec.CaptureStream
import Verif.Props.CaptureStream
import Verif.Model.Units
import Verif.Props.Units
import Verif.Model.Nudging
import Verif.Props.Nudging
import Verif.Props.NudgingShape
import Verif.Model.NudgingRounded
import Verif.Spec.Rounding
import Verif.Props.NudgingRounded
import Verif.Model.Text
import Verif.Model.Coupler
import Verif.Spec.Coupler
import Verif.Props.Coupler
import Verif.Model.DataArray
import Verif.Model.Restart
import Verif.Model.RestartTable
import Verif.Proofs.DictFold
import Verif.Props.Restart
import Verif.Model.StateFile
import Verif.Props.StateFile
import Verif.Model.Corners
import Verif.Spec.Corners
import Verif.Proofs.CornerGeometry
import Verif.Props.Corners
import Verif.Model.Sizer
import Verif.Spec.Sizer
import Verif.Props.Sizer
import Verif.Props.Scatter
import Verif.Model.Collective
import Verif.Spec.Collective
import Verif.Proofs.Coll
import Verif.Proofs.Place
import Verif.Proofs.ScatterView
import Verif.Proofs.Cover
import Verif.Proofs.ScatterProg
import Verif.Spec.CollState
import Verif.Proofs.CollState
import Verif.Props.CollState
import Verif.Model.Zarr
import Verif.Spec.ZarrWorld
import Verif.Spec.Zarr
import Verif.Proofs.ZarrRun
import Verif.Proofs.ZarrSel
import Verif.Proofs.ZarrPart
import Verif.Proofs.ZarrAppend
import Verif.Proofs.ZarrTime
import Verif.Proofs.ZarrStore
import Verif.Proofs.ZarrRecord
import Verif.Props.Zarr
import Verif.Props.ZarrErrors
import Verif.Props.ZarrShared
import Verif.Props.ZarrReject
import Verif.Model.ZarrOpen
import Verif.Props.ZarrOpen
import Verif.Proofs.ZarrBlock
import Verif.Proofs.ZarrReject
import Verif.Model.TileComm
import Verif.Model.OpenRestart
import Verif.Spec.TileComm
import Verif.Spec.RestartFile
import Verif.Spec.OpenRestart
import Verif.Proofs.TileComm
import Verif.Proofs.CollWithin
import Verif.Props.TileComm
import Verif.Props.OpenRestart
import Verif.Props.ViewNegative
import Verif.Model.CommTimer
import Verif.Spec.CommTimer
import Verif.Props.CommTimer
import Verif.Props.CommTimerSync
import Verif.Model.LateSend
import Verif.Spec.LateSend
import Verif.Proofs.LateSim
import Verif.Proofs.LateComm
import Verif.Proofs.LateSafe
import Verif.Props.LateSend
import Verif.Proofs.LateRun
import Verif.Props.LateLimit
import Verif.Model.QuantityInit
import Verif.Props.QuantityInit
import Verif.Proofs.Phases
import Verif.Model.Driver
import Verif.Proofs.DriverRun
import Verif.Spec.Driver
import Verif.Props.Driver
import Verif.Props.DriverSteps
import Verif.Model.Strided
import Verif.Spec.Strided
import Verif.Proofs.Strided
import Verif.Proofs.StridedViews
import Verif.Props.Strided
import Verif.Model.Session
import Verif.Spec.Session
import Verif.Proofs.HaloTags
import Verif.Proofs.SessionRun
import Verif.Props.Session
import Verif.Props.StateSession
import Verif.Model.FieldModel
import Verif.Spec.FieldModel
import Verif.Proofs.FieldModel
import Verif.Props.FieldModel
import Verif.Props.FieldModelExample
import Verif.Model.AsyncSession
import Verif.Spec.AsyncSession
import Verif.Proofs.AsyncRun
import Verif.Proofs.AsyncPhase
import Verif.Props.AsyncSession
import Verif.Proofs.Shift
import Verif.Model.ManyComm
import Verif.Proofs.ManyRun
import Verif.Props.ManyComm
import Verif.Model.Memory
import Verif.Spec.Memory
import Verif.Proofs.Memory
import Verif.Proofs.MemorySpec
import Verif.Props.Memory
import Verif.Spec.Float
import Verif.Props.Float
import Verif.Model.Allocator
import Verif.Props.Allocator
import Verif.Model.Datetime64
import Verif.Spec.Datetime64
import Verif.Props.Datetime64
import Verif.Spec.ZarrCrash
import Verif.Proofs.ZarrCrash
import Verif.Props.ZarrCrash
import Verif.Spec.Broadcast
import Verif.Proofs.Broadcast
import Verif.Props.Broadcast
import Verif.Proofs.TagShift
import Verif.Model.Guarded
import Verif.Spec.Guarded
import Verif.Proofs.Guarded
import Verif.Props.Guarded
import Verif.Proofs.CollOps
import Verif.Model.TileSession
import Verif.Spec.TileSession
import Verif.Proofs.TilePhase
import Verif.Proofs.TileSession
import Verif.Props.TileSession
import Verif.Model.TileSplit
import Verif.Spec.TileSplit
import Verif.Proofs.TileSplit
import Verif.Proofs.Never
import Verif.Props.TileSplit
import Verif.Props.DataArray
import Verif.Model.LooseMpi
import Verif.Proofs.Agree
import Verif.Proofs.LooseMpi
import Verif.Props.LooseMpi
import Verif.Model.OneProcess
import Verif.Spec.OneProcess
import Verif.Proofs.OneProcess
import Verif.Props.OneProcess
import Verif.Model.OneProcessColl
import Verif.Spec.OneProcessColl
import Verif.Proofs.OneProcessColl
import Verif.Props.OneProcessColl
import Verif.Props.Pipeline
import Verif.Model.TagBound
import Verif.Spec.TagBound
import Verif.Proofs.TagBound
import Verif.Props.TagBound
import Verif.Proofs.CollSpec
import Verif.Model.FullSession
import Verif.Spec.FullSession
import Verif.Proofs.FullSession
import Verif.Props.FullSession
import Verif.Model.LooseFull
import Verif.Props.LooseFull
import Verif.Model.TagFull
import Verif.Spec.TagFull
import Verif.Props.TagFull
import Verif.Model.FancyView
import Verif.Spec.FancyView
import Verif.Proofs.FancyView
import Verif.Props.FancyView
import Verif.Model.FancyAssign
import Verif.Spec.FancyAssign
import Verif.Proofs.FancyAssign
import Verif.Props.FancyAssign
import Verif.Model.TrySession
import Verif.Spec.TrySession
import Verif.Proofs.Retag
import Verif.Proofs.TrySession
import Verif.Props.TrySession
import Verif.Spec.BufferUse
import Verif.Props.BufferUse
import Verif.Model.HeapComm
import Verif.Spec.HeapComm
import Verif.Proofs.HeapComm
import Verif.Proofs.HeapGrow
import Verif.Proofs.HeapSession
import Verif.Props.HeapComm
import Verif.Cases.HeapComm
import Verif.Model.HeapAsync
import Verif.Spec.HeapAsync
import Verif.Proofs.HeapAsync
import Verif.Props.HeapAsync
import Verif.Cases.HeapAsync
import Verif.Model.HeapLate
import Verif.Proofs.HeapLate
import Verif.Props.HeapLate
import Verif.Cases.HeapLate
import Verif.Model.HeapLateAsync
import Verif.Spec.HeapLateAsync
import Verif.Proofs.HeapLateAsync
import Verif.Props.HeapLateAsync
import Verif.Cases.HeapLateAsync
import Verif.Model.HeapColl
import Verif.Spec.HeapColl
import Verif.Proofs.HeapColl
import Verif.Props.HeapColl
import Verif.Cases.HeapColl
import Verif.Model.HeapMixed
import Verif.Spec.HeapMixed
import Verif.Proofs.HeapMixed
import Verif.Props.HeapMixed
import Verif.Cases.HeapMixed
import Verif.Model.HeapState
import Verif.Spec.HeapState
import Verif.Proofs.HeapState
import Verif.Props.HeapState
import Verif.Cases.HeapState
import Verif.Model.HeapStates
import Verif.Spec.HeapStates
import Verif.Proofs.HeapStates
import Verif.Props.HeapStates
import Verif.Cases.HeapStates
import Verif.Props.HeapWinds
import Verif.Cases.HeapWinds
import Verif.Props.HeapOne
import Verif.Props.HeapMixedOne
import Verif.Cases.HeapOne
import Verif.Model.HeapTogether
import Verif.Spec.HeapTogether
import Verif.Proofs.HeapTogether
import Verif.Props.HeapTogether
import Verif.Props.HeapMeanwhile
import Verif.Cases.HeapTogether
import Verif.Props.HeapStatesOne
import Verif.Cases.Partition
import Verif.Cases.Exchange
import Verif.Cases.Quantity
import Verif.Cases.Files
import Verif.Cases.Sessions
import Verif.Cases.Memory
import Verif.Cases.Layouts
import Verif.Cases.Complete
