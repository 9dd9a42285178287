import Verif.Model.Base
import Verif.Model.Digits
import Verif.Model.Decimal
import Verif.Props.Decimal
import Verif.Props.Decimal2
import Verif.Props.Encoder
import Verif.Props.Encoder2
import Verif.Props.Time
import Verif.Props.Keys
import Verif.Props.Driver
import Verif.Props.Executor
import Verif.Props.Meter
import Verif.Props.Isolation
import Verif.Props.Context
import Verif.Props.Random
import Verif.Props.Imports
import Verif.Props.Events
import Verif.Props.Orm
import Verif.Props.Client
import Verif.Props.Environment
import Verif.Props.Submission
import Verif.Props.Ast
import Verif.Props.Accept
import Verif.Props.Export
import Verif.Props.Interface
import Verif.Props.Proxy
import Verif.Props.Text
import Verif.Props.Compiler
import Verif.Props.Variables
import Verif.Props.Crypto
import Verif.Props.Driver2
import Verif.Props.DiskListing
import Verif.Props.Guard
import Verif.Props.Token
import Verif.Props.Lang
import Verif.Props.Args
import Verif.Props.Attribute
import Verif.Props.Lock
import Verif.Props.Submit
import Verif.Props.Replica
import Verif.Props.TimeText
import Verif.Props.Power
import Verif.Props.Source
import Verif.Props.TokenSource
import Verif.Props.Node
import Verif.Props.Deploy
import Verif.Props.SourceNode
import Verif.Props.NodeEvents
import Verif.Props.NodeReplica
import Verif.Props.Finish
import Verif.Props.Ground
import Verif.Props.Calls
import Verif.Props.Stamps
import Verif.Props.Reads
import Verif.Props.Unmetered
import Verif.Props.AutoCommit
import Verif.Props.Batch
import Verif.Props.AnyOrder
import Verif.Props.LangApart
