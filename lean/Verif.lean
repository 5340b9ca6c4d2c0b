import Verif.Props.Access
import Verif.Props.Acks
import Verif.Props.Addresses
import Verif.Props.AdminApi
import Verif.Props.Batch
import Verif.Props.Blocking
import Verif.Props.Chain
import Verif.Props.Channel
import Verif.Props.CliConsume
import Verif.Props.CliProduce
import Verif.Props.Client
import Verif.Props.ClusterCheck
import Verif.Props.ClusterMessages
import Verif.Props.Codec
import Verif.Props.Commit
import Verif.Props.Compress
import Verif.Props.Confined
import Verif.Props.ConnectorConsumer
import Verif.Props.ConnectorSecret
import Verif.Props.Dedup
import Verif.Props.Delivery
import Verif.Props.Deploy
import Verif.Props.Election
import Verif.Props.EndToEnd
import Verif.Props.Fetch
import Verif.Props.FetchMany
import Verif.Props.FileWrite
import Verif.Props.Filter
import Verif.Props.Flush
import Verif.Props.Fvm
import Verif.Props.Health
import Verif.Props.HexDump
import Verif.Props.HubAccess
import Verif.Props.HubPackage
import Verif.Props.Identity
import Verif.Props.Kv
import Verif.Props.LocalCluster
import Verif.Props.LocalDisk
import Verif.Props.LocalStore
import Verif.Props.LocalWatch
import Verif.Props.Log
import Verif.Props.LookBack
import Verif.Props.Metadata
import Verif.Props.Mirror
import Verif.Props.MirrorPairing
import Verif.Props.MirrorProgress
import Verif.Props.MirrorTopics
import Verif.Props.Misc
import Verif.Props.Mux
import Verif.Props.Net
import Verif.Props.Objects
import Verif.Props.Package
import Verif.Props.PackageIds
import Verif.Props.PartitionMap
import Verif.Props.Partitioner
import Verif.Props.Partitions
import Verif.Props.Pool
import Verif.Props.Producer
import Verif.Props.Profile
import Verif.Props.Reader
import Verif.Props.Recovery
import Verif.Props.Releases
import Verif.Props.Removal
import Verif.Props.ReplicaBytes
import Verif.Props.Replication
import Verif.Props.ReplicationProgress
import Verif.Props.Reports
import Verif.Props.Restart
import Verif.Props.Retention
import Verif.Props.Retry
import Verif.Props.Roles
import Verif.Props.Scheduler
import Verif.Props.SegmentFiles
import Verif.Props.Sessions
import Verif.Props.SmartMetrics
import Verif.Props.SmartProduce
import Verif.Props.SmartStream
import Verif.Props.SmartWire
import Verif.Props.SpuGroups
import Verif.Props.SpuMessages
import Verif.Props.Stream
import Verif.Props.Topic
import Verif.Props.TopicSettings
import Verif.Props.Varint
import Verif.Audit
