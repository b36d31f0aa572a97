import Verif.Model.Bytes
import Verif.Model.Meta
import Verif.Model.Index
import Verif.Model.Rank
import Verif.Props.Meta
import Verif.Model.Sort
import Verif.Model.Read
import Verif.Props.Index
import Verif.Props.Sort
import Verif.Lemmas.ReadSpec
import Verif.Lemmas.ReadTotal
import Verif.Lemmas.FileInv
import Verif.Props.File
import Verif.Props.FileEx
import Verif.Props.Flush
import Verif.Props.FlushEx
import Verif.Props.Mode
import Verif.Props.FlushCalls
import Verif.Props.Conn
import Verif.Props.Convert
import Verif.Props.View
import Verif.Props.Repeat
import Verif.Props.Again
import Verif.Props.Dataspace
import Verif.Props.Regular
import Verif.Props.Buffers
import Verif.Props.Handles
import Verif.Props.Held
import Verif.Props.Disk
import Verif.Props.Types
import Verif.Props.Queue
import Verif.Props.QueueApi
import Verif.Props.Args
import Verif.Props.Bounds
import Verif.Lemmas.EncExact
import Verif.Props.Rows
import Verif.Props.Recorded
import Verif.Props.RecordedRun
import Verif.Props.Damage
import Verif.Props.DamageRun
import Verif.Props.DumpRows
import Verif.Props.Wrap
import Verif.Props.FlushFail
import Verif.Props.Endian
import Verif.Props.Names
import Verif.Props.Groups
import Verif.Props.Optional
import Verif.Props.Options
import Verif.Props.Request
import Verif.Props.Tools
import Verif.Props.Filter
import Verif.Props.Zip
import Verif.Props.Stage
import Verif.Props.Extent
import Verif.Model.Attr
import Verif.Props.Attr
import Verif.Model.SelSpace
import Verif.Props.SelSpace
import Verif.Model.Ids
import Verif.Props.Ids
import Verif.Model.Info
import Verif.Props.Info
import Verif.Model.Scatter
import Verif.Props.Scatter
import Verif.Model.Merged
import Verif.Props.Merged
import Verif.Spec.Select
import Verif.Lemmas.Strided
import Verif.Lemmas.Trim
import Verif.Lemmas.Serves
import Verif.Lemmas.Select
import Verif.Props.Select
import Verif.Props.Lost
import Verif.Model.Replay
import Verif.Model.ReplayCopy
import Verif.Model.ReplaySub
import Verif.Model.Subfile
import Verif.Spec.Replay
import Verif.Spec.ReplayCopy
import Verif.Lemmas.Replay
import Verif.Lemmas.ReplayFile
import Verif.Lemmas.Script
import Verif.Props.Replay
import Verif.Props.ReplayCopy
import Verif.Lemmas.ReplaySub
import Verif.Props.ReplaySub
import Verif.Props.Subfile
import Verif.Model.Align
import Verif.Spec.Align
import Verif.Props.Align
import Verif.Model.LogNames
import Verif.Spec.Crash
import Verif.Lemmas.Crash
import Verif.Props.Crash
import Verif.Model.Tree
import Verif.Model.ObjInfo
import Verif.Props.Tree
import Verif.Props.ObjInfo
import Verif.Model.Coll
import Verif.Spec.Coll
import Verif.Lemmas.Coll
import Verif.Lemmas.CollFlush
import Verif.Lemmas.CollMeta
import Verif.Lemmas.CollSees
import Verif.Lemmas.CollOps
import Verif.Props.Coll
import Verif.Model.Async
import Verif.Spec.Async
import Verif.Props.Async
import Verif.Model.Plug
import Verif.Props.Plug
import Verif.Model.Multi
import Verif.Props.Multi
import Verif.Model.ReadOnly
import Verif.Props.ReadOnly
import Verif.Model.Api
import Verif.Spec.Api
import Verif.Lemmas.Api
import Verif.Lemmas.ApiCalls
import Verif.Props.Api
import Verif.Props.Same
import Verif.Model.Owner
import Verif.Lemmas.Owner
import Verif.Lemmas.OwnerReady
import Verif.Lemmas.OwnerRun
import Verif.Props.Owner
import Verif.Model.Dump
import Verif.Spec.Dump
import Verif.Lemmas.Dump
import Verif.Props.Dump
import Verif.Model.WriteFail
import Verif.Spec.WriteFail
import Verif.Lemmas.WriteFail
import Verif.Props.WriteFail
import Verif.Spec.Exact
import Verif.Lemmas.SameEntry
import Verif.Lemmas.Exact
import Verif.Lemmas.ExactRead
import Verif.Lemmas.ExactFile
import Verif.Props.Exact
import Verif.Model.Dset
import Verif.Spec.Dset
import Verif.Lemmas.Dset
import Verif.Props.Dset
import Verif.Model.Plain
import Verif.Spec.Plain
import Verif.Lemmas.Plain
import Verif.Props.Plain
import Verif.Model.Passthru
import Verif.Spec.Passthru
import Verif.Lemmas.Passthru
import Verif.Props.Passthru
import Verif.Model.Stack
import Verif.Spec.Stack
import Verif.Props.Stack
import Verif.Spec.Format
import Verif.Spec.Rows
import Verif.Lemmas.Format
import Verif.Lemmas.FormatRead
import Verif.Props.Format
import Verif.Model.Mains
import Verif.Model.WMem
import Verif.Model.ReqMore
import Verif.Lemmas.WMem
import Verif.Props.Mains
import Verif.Props.WMem
import Verif.Props.ReqMore
import Verif.Props.Lookup
import Verif.Props.Atts
import Verif.Props.Table
import Verif.Props.TableRun
import Verif.Props.Grow
import Verif.Props.Copies
import Verif.Props.CopyProgs
import Verif.Props.SecCount
import Verif.Props.SecCountReplay
import Verif.Props.SecCountLoop
import Verif.Props.HexDump
import Verif.Props.TableTools
import Verif.Props.Parts
