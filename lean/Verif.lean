import Verif.Props.Chunking
import Verif.Props.Io
import Verif.Props.Caibx
import Verif.Props.Index
import Verif.Props.Local
import Verif.Props.LocalExact
import Verif.Props.Chain
import Verif.Props.Http
import Verif.Props.HttpGood
import Verif.Props.Encrypt
import Verif.Props.Evp
import Verif.Props.ToolOver
import Verif.Props.Buffer
import Verif.Props.Keys
import Verif.Props.Sync
import Verif.Props.Resume
import Verif.Props.Repeat
import Verif.Props.SyncEx
import Verif.Props.Safety
import Verif.Props.Patchdd
import Verif.Props.PatchReport
import Verif.Props.Named
import Verif.Props.Ui
import Verif.Props.Sha
import Verif.Props.Tool
import Verif.Props.Casync
import Verif.Proof.Keep
import Verif.Props.Keep
import Verif.Spec.Turns
import Verif.Proof.Turns
import Verif.Props.Turns
import Verif.Spec.Stats
import Verif.Proof.Stats
import Verif.Props.Stats
import Verif.Proof.Walk
import Verif.Spec.Net
import Verif.Proof.Net
import Verif.Props.Net
import Verif.Spec.Avail
import Verif.Proof.Avail
import Verif.Props.Avail
import Verif.Spec.Ideal
import Verif.Proof.Closed
import Verif.Proof.ScanAny
import Verif.Proof.Steady
import Verif.Proof.Logged
import Verif.Proof.Ends
import Verif.Proof.NoDiverge
import Verif.Proof.ReadOnly
import Verif.Props.Steady
import Verif.Model.Log
import Verif.Model.Bench
import Verif.Spec.Log
import Verif.Props.Log
import Verif.Props.Hexdump
import Verif.Props.Kcapi
import Verif.Props.Bench
import Verif.Props.Rsc
import Verif.Props.Usage
import Verif.Props.Wipe
import Verif.Props.Missing
import Verif.Spec.Publish
import Verif.Props.Publish
import Verif.Props.PublishEx
import Verif.Spec.Feed
import Verif.Props.Feed
import Verif.Props.Vectors
import Verif.Props.Msg
import Verif.Spec.Rep
import Verif.Props.Rep
import Verif.Props.Race
import Verif.Props.RaceCovers
import Verif.Props.More
import Verif.Props.Shared
import Verif.Props.KernelHash
import Verif.Props.ToolRace
import Verif.Props.PatchRace
import Verif.Props.Edits
import Verif.Props.TestImage
import Verif.Props.Room
import Verif.Spec.ToolOut
import Verif.Props.ToolOut
import Verif.Model.Double
import Verif.Spec.Double
import Verif.Props.Double
import Verif.Props.Defined
import Verif.Props.DiscRun
import Verif.Props.Dead
import Verif.Props.AllDead
