import Verif.Model.Exec
import Verif.Model.PageTables
import Verif.Props.Bits
import Verif.Props.Geometry
import Verif.Props.Boot
import Verif.Props.Wipe
import Verif.Props.PageTables
import Verif.Props.RegionCalls
import Verif.Props.System
import Verif.Props.Frame
import Verif.Props.Isolation
import Verif.Props.Enclave
import Verif.Props.Ids
import Verif.Props.Conc
import Verif.Props.WaitFree
import Verif.Props.Hash
import Verif.Props.Measure
import Verif.Props.Confine
import Verif.Props.Bare
import Verif.Props.Mapping
import Verif.Spec.Codes
import Verif.Props.Codes
import Verif.Props.CodesSys
import Verif.Props.Reset
import Verif.Props.Progress
import Verif.Props.Threads
import Verif.Props.Atomic
import Verif.Spec.Mirror
import Verif.Spec.Registers
import Verif.Props.Registers
import Verif.Props.Mirror
import Verif.Spec.Flush
import Verif.Spec.Count
import Verif.Lemmas.AtomicRun
import Verif.Lemmas.Flushed
import Verif.Lemmas.Count
import Verif.Props.Flush
import Verif.Props.Count
import Verif.Spec.Race
import Verif.Lemmas.Race
import Verif.Lemmas.RaceCalls
import Verif.Lemmas.RaceSound
import Verif.Lemmas.Commute
import Verif.Props.Race
import Verif.Spec.Contention
import Verif.Lemmas.Civil
import Verif.Props.Contention
import Verif.Model.Bytes
import Verif.Spec.Bytes
import Verif.Lemmas.Bytes
import Verif.Props.Bytes
import Verif.Model.Tso
import Verif.Lemmas.Late
import Verif.Lemmas.Tso
import Verif.Lemmas.TsoSound
import Verif.Props.Tso
import Verif.Tests.Repo
import Verif.Spec.Boot
import Verif.Props.BootDecision
import Verif.Spec.Serial
import Verif.Lemmas.Serial
import Verif.Lemmas.SerialSim
import Verif.Lemmas.SerialStep
import Verif.Lemmas.SerialCalls
import Verif.Props.Serial
import Verif.Spec.Ordered
import Verif.Lemmas.Ordered
import Verif.Props.Settled
import Verif.Spec.Cache
import Verif.Props.Cache
import Verif.Spec.Reach
import Verif.Props.Reach
import Verif.Spec.Pattern
import Verif.Props.Pattern
import Verif.Lemmas.Explore
import Verif.Props.Torn
import Verif.Lemmas.Once
import Verif.Spec.Buffers
import Verif.Lemmas.TsoSoft
import Verif.Props.Buffers
import Verif.Model.Dma
import Verif.Props.Dma
import Verif.Spec.Footprint
import Verif.Lemmas.Footprint
import Verif.Props.Footprint
import Verif.Props.Instances
import Verif.Spec.Twin
import Verif.Lemmas.Twin
import Verif.Props.Twin
import Verif.Props.Sequential
import Verif.Props.Kept
import Verif.Spec.Swap
import Verif.Lemmas.Swap
import Verif.Props.Swap
import Verif.Model.TsoBytes
import Verif.Spec.TsoBytes
import Verif.Lemmas.TsoBytes
import Verif.Props.TsoBytes
import Verif.Spec.Lent
import Verif.Lemmas.Lent
import Verif.Props.Lent
import Verif.Spec.Junk
import Verif.Lemmas.Junk
import Verif.Props.Junk
import Verif.Props.JunkBoot
import Verif.Spec.Erase
import Verif.Props.Erase
import Verif.Spec.Again
import Verif.Props.Again
import Verif.Props.PageIndex
